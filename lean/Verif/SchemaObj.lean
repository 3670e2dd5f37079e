import Verif.SchemaField

/-!
# Structures, choices and unions
-/

namespace Zs

open Spec

/-- The operations of a field and the valid values of its type. -/
structure FieldSpec where
  ops : FieldOps
  valid : Env → Val → Prop

/-- A field is valid. -/
def FieldSpec.Valid (s : FieldSpec) : Env → Val → Prop := s.ops.Valid s.valid

/-- The type of the field can be coded. -/
def FieldSpec.Codable (s : FieldSpec) (packed z : Bool) : Prop := s.ops.Codable s.valid packed z

/-- The fields of a structure are valid. -/
def ValidFields (ps : List Val) : List FieldSpec → List Val → List Val → Prop
  | [], _, vs => vs = []
  | s :: ss, done, vs => ∃ v vs', vs = v :: vs' ∧ s.Valid ⟨ps, done⟩ v ∧
      ValidFields ps ss (done ++ [v]) vs'

/-- Operations and defaults of a list of fields. -/
def opsOf (ss : List FieldSpec) : List FieldOps := ss.map FieldSpec.ops

/-! ## Not packed -/

theorem fields_plain (cfg : Cfg) {ps : List Val} {ss : List FieldSpec} {z : Bool}
    (hcod : ∀ s ∈ ss, s.Codable false z) {done vs : List Val} (hv : ValidFields ps ss done vs)
    (i : Nat) (before : List Bool) :
    ∃ bits, (∀ n, encodeFields false ps (opsOf ss) i done vs n ⟨before⟩ =
        .ok (⟨before ++ bits⟩, n)) ∧
      ∀ n after, decodeFields cfg false ps (opsOf ss) i done ((opsOf ss).map FieldOps.dflt) n
        ⟨before.length, bits ++ after⟩ =
        .ok ((done ++ vs, n), ⟨before.length + bits.length, after⟩) := by
  induction ss generalizing done vs i before with
  | nil =>
    cases hv
    exact ⟨[], fun n => by simp [opsOf, encodeFields], fun n after => by
      simp [opsOf, decodeFields]⟩
  | cons s ss ih =>
    obtain ⟨v, vs, rfl, h1, h2⟩ := hv
    obtain ⟨b1, hw1, hr1⟩ := FieldOps.field_plain cfg s.ops (hcod s (List.mem_cons_self ..)) h1 i
      before
    obtain ⟨b2, hw2, hr2⟩ := ih (fun s hs => hcod s (List.mem_cons_of_mem _ hs)) h2 (i + 1)
      (before ++ b1)
    refine ⟨b1 ++ b2, fun n => ?_, fun n after => ?_⟩
    · simp only [opsOf, List.map_cons, encodeFields, hw1, Res.ok_bind] at hw2 ⊢
      rw [hw2, List.append_assoc]
    · have := hr2 n after
      simp only [opsOf, List.map_cons, decodeFields, List.append_assoc, hr1, Res.ok_bind,
        List.length_append] at this ⊢
      rw [this]
      simp [Nat.add_assoc]

/-- Structures are read back. -/
theorem struct_rt (cfg : Cfg) {params : List Val} {ss : List FieldSpec} {z : Bool}
    (hcod : ∀ s ∈ ss, s.Codable false z) {ps vs : List Val} (hv : ValidFields ps ss [] vs) :
    RoundTrips (fun w => (structCodec cfg params (opsOf ss)).write (.obj ps vs) w)
      (fun r => (structCodec cfg params (opsOf ss)).read
        ((structCodec cfg params (opsOf ss)).dflt.withParams ps) r) (.obj ps vs) := by
  intro before
  obtain ⟨bits, hw, hr⟩ := fields_plain cfg hcod hv 0 before
  refine ⟨bits, by simp [structCodec, hw], fun after => ?_⟩
  simp [structCodec, Val.withParams, hr]

/-! ## Packed -/

/-- Every child of the writer's node and of the reader's node can follow its list of items. -/
def Rel (fs : List FieldOps) (L : Nat → List PItem) (cws crs : List Node) : Prop :=
  cws.length = fs.length ∧ crs.length = fs.length ∧
    ∀ (j : Nat) (f : FieldOps) (cw cr : Node), fs[j]? = some f → cws[j]? = some cw → crs[j]? = some cr →
      f.ty.Follows (L j) cw cr

/-- Every child is initialised to `ns` by its list of items. -/
def Target (fs : List FieldOps) (L : Nat → List PItem) (cs ns : List Node) : Prop :=
  cs.length = fs.length ∧ ns.length = fs.length ∧
    ∀ (j : Nat) (f : FieldOps) (c n : Node), fs[j]? = some f → cs[j]? = some c → ns[j]? = some n →
      f.ty.initItems c (L j) = .ok n

theorem Rel.update {fs : List FieldOps} {L L' : Nat → List PItem} {cws crs : List Node}
    (h : Rel fs L cws crs) {i : Nat} {cw' cr' : Node} (hne : ∀ j, j ≠ i → L' j = L j)
    (hi : ∀ f : FieldOps, fs[i]? = some f → f.ty.Follows (L' i) cw' cr') :
    Rel fs L' (cws.set i cw') (crs.set i cr') := by
  refine ⟨by simp [h.1], by simp [h.2.1], fun j f cw cr hf hw hr => ?_⟩
  by_cases hj : j = i
  · subst hj
    have := List.getElem?_eq_some_iff.1 hw
    have hlt : j < cws.length := by simpa using this.1
    have hlt2 : j < crs.length := by rw [h.2.1, ← h.1]; exact hlt
    rw [List.getElem?_set_self hlt] at hw
    rw [List.getElem?_set_self hlt2] at hr
    cases hw; cases hr
    exact hi f hf
  · rw [List.getElem?_set_ne (Ne.symm hj)] at hw hr
    rw [hne j hj]
    exact h.2.2 j f cw cr hf hw hr

theorem Target.update {fs : List FieldOps} {L L' : Nat → List PItem} {cs ns : List Node}
    (h : Target fs L cs ns) {i : Nat} {c' : Node} (hne : ∀ j, j ≠ i → L' j = L j)
    (hi : ∀ (f : FieldOps) (n : Node), fs[i]? = some f → ns[i]? = some n → f.ty.initItems c' (L' i) = .ok n) :
    Target fs L' (cs.set i c') ns := by
  refine ⟨by simp [h.1], h.2.1, fun j f c n hf hc hn => ?_⟩
  by_cases hj : j = i
  · subst hj
    have := List.getElem?_eq_some_iff.1 hc
    have hlt : j < cs.length := by simpa using this.1
    rw [List.getElem?_set_self hlt] at hc
    cases hc
    exact hi f n hf hn
  · rw [List.getElem?_set_ne (Ne.symm hj)] at hc
    rw [hne j hj]
    exact h.2.2 j f c n hf hc hn

theorem Rel.congr {fs : List FieldOps} {L L' : Nat → List PItem} {cws crs : List Node}
    (h : Rel fs L cws crs) (he : ∀ j < fs.length, L' j = L j) : Rel fs L' cws crs := by
  refine ⟨h.1, h.2.1, fun j f cw cr hf hw hr => ?_⟩
  rw [he j (List.getElem?_eq_some_iff.1 hf).1]
  exact h.2.2 j f cw cr hf hw hr

theorem Target.congr {fs : List FieldOps} {L L' : Nat → List PItem} {cs ns : List Node}
    (h : Target fs L cs ns) (he : ∀ j < fs.length, L' j = L j) : Target fs L' cs ns := by
  refine ⟨h.1, h.2.1, fun j f c n hf hc hn => ?_⟩
  rw [he j (List.getElem?_eq_some_iff.1 hf).1]
  exact h.2.2 j f c n hf hc hn

theorem exists_list {α β : Type} {P : Nat → α → β → Prop} (l : List α)
    (h : ∀ (j : Nat) (a : α), l[j]? = some a → ∃ b, P j a b) :
    ∃ bs : List β, bs.length = l.length ∧ ∀ (j : Nat) (a : α) (b : β), l[j]? = some a → bs[j]? = some b → P j a b := by
  induction l generalizing P with
  | nil => exact ⟨[], rfl, by simp⟩
  | cons a l ih =>
    obtain ⟨b, hb⟩ := h 0 a rfl
    obtain ⟨bs, hl, hbs⟩ := ih (P := fun j => P (j + 1)) (fun j a ha => h (j + 1) a (by simpa using ha))
    refine ⟨b :: bs, by simp [hl], fun j a' b' ha hb' => ?_⟩
    cases j with
    | zero => simp at ha hb'; subst ha hb'; exact hb
    | succ j => exact hbs j a' b' (by simpa using ha) (by simpa using hb')

/-- A type whose node has one child per field can be packed if each child can be packed.  `o it j` is
what the item `it` means for child `j`. -/
theorem composite_packs {t : TypeOps} {fs : List FieldOps} {own : Option DeltaContext}
    (hcreate : t.createContext = .mk (fs.map FieldOps.createContext) own)
    (o : PItem → Nat → Option PItem) {its : List PItem}
    (hwr : ∀ it ∈ its, it.written = false → ∀ j x, o it j = some x → x.written = false)
    (hchild : ∀ (j : Nat) (f : FieldOps), fs[j]? = some f → ∃ n,
      f.ty.initItems f.createContext (its.filterMap (o · j)) = .ok n ∧
      f.ty.Follows ((its.filterMap (o · j)).filter PItem.written) n f.createContext)
    (hinit : ∀ it ∈ its, ∀ cs ns R, Target fs (fun j => (o it j).toList ++ R j) cs ns →
      ∃ cs', t.initContext it.env it.val (.mk cs own) = .ok (.mk cs' own) ∧ Target fs R cs' ns)
    (hstep : ∀ it ∈ its, it.written = true → ∀ cws crs R,
      Rel fs (fun j => (o it j).toList.filter PItem.written ++ R j) cws crs →
      ∀ before : List Bool, ∃ bits cws' crs',
        t.writePacked it.env it.val (.mk cws own) ⟨before⟩ =
          .ok (⟨before ++ bits⟩, .mk cws' own) ∧
        (∀ after, t.readPacked it.env (t.dflt.withParams it.val.params) (.mk crs own)
          ⟨before.length, bits ++ after⟩ =
          .ok ((it.val, .mk crs' own), ⟨before.length + bits.length, after⟩)) ∧
        Rel fs R cws' crs') : t.Packs its := by
  obtain ⟨ns, hlen, hns⟩ := exists_list (P := fun j f n =>
      f.ty.initItems f.createContext (its.filterMap (o · j)) = .ok n ∧
      f.ty.Follows ((its.filterMap (o · j)).filter PItem.written) n f.createContext) fs hchild
  -- initialisation
  have loop : ∀ l : List PItem, (∀ it ∈ l, it ∈ its) → ∀ cs,
      Target fs (fun j => l.filterMap (o · j)) cs ns →
      t.initItems (.mk cs own) l = .ok (.mk ns own) := by
    intro l
    induction l with
    | nil =>
      intro _ cs ht
      have : cs = ns := by
        apply List.ext_getElem? 
        intro j
        by_cases hj : j < fs.length
        · have h1 := List.getElem?_eq_getElem (l := cs) (i := j) (by rw [ht.1]; exact hj)
          have h2 := List.getElem?_eq_getElem (l := ns) (i := j) (by rw [ht.2.1]; exact hj)
          have h3 := ht.2.2 j _ _ _ (List.getElem?_eq_getElem hj) h1 h2
          simp only [List.filterMap_nil, TypeOps.initItems, Res.ok.injEq] at h3
          rw [h1, h2, h3]
        · rw [List.getElem?_eq_none (by rw [ht.1]; omega),
            List.getElem?_eq_none (by rw [ht.2.1]; omega)]
      rw [this]; rfl
    | cons it l ih =>
      intro hmem cs ht
      obtain ⟨cs', h1, h2⟩ := hinit it (hmem it (List.mem_cons_self ..)) cs ns
        (fun j => l.filterMap (o · j)) (ht.congr (fun j _ => by
          simp only [List.filterMap_cons]; cases o it j <;> rfl))
      simp only [TypeOps.initItems, h1, Res.ok_bind]
      exact ih (fun x hx => hmem x (List.mem_cons_of_mem _ hx)) cs' h2
  have hget : ∀ (j : Nat) (f : FieldOps) (c : Node), fs[j]? = some f →
      (fs.map FieldOps.createContext)[j]? = some c → c = f.createContext := by
    intro j f c hf hc
    rw [List.getElem?_map, hf] at hc
    cases hc; rfl
  refine ⟨.mk ns own, ?_, ?_⟩
  · rw [hcreate]
    refine loop its (fun _ h => h) _ ⟨by simp, hlen, fun j f c n hf hc hn => ?_⟩
    rw [hget j f c hf hc]
    exact (hns j f n hf hn).1
  -- writing and reading
  have follow : ∀ l : List PItem, (∀ it ∈ l, it ∈ its ∧ it.written = true) → ∀ cws crs,
      Rel fs (fun j => (l.filterMap (o · j)).filter PItem.written) cws crs →
      t.Follows l (.mk cws own) (.mk crs own) := by
    intro l
    induction l with
    | nil => intro _ _ _ _; trivial
    | cons it l ih =>
      intro hmem cws crs hrel before
      obtain ⟨hm, hw⟩ := hmem it (List.mem_cons_self ..)
      obtain ⟨bits, cws', crs', h1, h2, h3⟩ := hstep it hm hw cws crs
        (fun j => (l.filterMap (o · j)).filter PItem.written) (hrel.congr (fun j _ => by
          simp only [List.filterMap_cons]
          cases o it j <;> simp [List.filter_cons]
          split <;> rfl)) before
      exact ⟨bits, _, _, h1, h2, ih (fun x hx => hmem x (List.mem_cons_of_mem _ hx)) _ _ h3⟩
  rw [hcreate]
  refine follow _ (fun it hit => by rw [List.mem_filter] at hit; exact hit) _ _
    ⟨hlen, by simp, fun j f cw cr hf hcw hcr => ?_⟩
  rw [hget j f cr hf hcr]
  have e : ((its.filter PItem.written).filterMap (o · j)).filter PItem.written =
      (its.filterMap (o · j)).filter PItem.written := by
    clear hchild hinit hstep hns loop follow
    induction its with
    | nil => rfl
    | cons it its ih =>
      have ih := ih (fun x hx => hwr x (List.mem_cons_of_mem _ hx))
      have h0 := hwr it (List.mem_cons_self ..)
      cases hw : it.written with
      | true =>
        simp only [List.filter_cons, hw, if_true, List.filterMap_cons]
        cases o it j with
        | none => exact ih
        | some x => simp only [List.filter_cons, ih]
      | false =>
        have h0 := h0 hw j
        simp only [List.filter_cons, hw, Bool.false_eq_true, if_false, List.filterMap_cons]
        cases ho : o it j with
        | none => exact ih
        | some x => simp only [List.filter_cons, h0 x ho, Bool.false_eq_true, if_false, ih]
  simp only [e]
  exact (hns j f cw hf hcw).2

/-- What an object with parameters `ps` and fields `vs` means for child `j`; the environment of the
field is given by `envs`. -/
def itemAt (fs : List FieldOps) (envs : Nat → Env) (vs : List Val) (b : Bool) (j : Nat) :
    Option PItem :=
  match fs[j]?, vs[j]? with
  | some f, some v => f.contentItem (envs j) v b
  | _, _ => none

theorem FieldOps.contentItem_written {f : FieldOps} {env : Env} {v : Val} {b : Bool} {x : PItem}
    (hx : f.contentItem env v b = some x) : x.written = b := by
  unfold FieldOps.contentItem at hx
  split at hx
  · cases hx
  · split at hx
    · split at hx
      · cases hx; rfl
      · cases hx
    · cases hx; rfl

theorem itemAt_written {fs : List FieldOps} {envs : Nat → Env} {vs vs' : List Val} {j : Nat}
    (hv : vs' = vs) : (itemAt fs envs vs' true j).toList =
      (itemAt fs envs vs true j).toList.filter PItem.written := by
  subst hv
  cases hx : itemAt fs envs vs' true j with
  | none => rfl
  | some x =>
    have : x.written = true := by
      simp only [itemAt] at hx
      cases hf : fs[j]? with
      | none => simp [hf] at hx
      | some f =>
        cases hv : vs'[j]? with
        | none => simp [hf, hv] at hx
        | some v =>
          simp only [hf, hv] at hx
          exact FieldOps.contentItem_written hx
    simp [this]

/-- If all items for a child of a field are acceptable, the child can be packed. -/
theorem child_packs {s : FieldSpec} {z : Bool} (hcod : s.Codable true z) {l : List PItem}
    (hitems : ∀ it ∈ l, (∃ env v b, s.ops.contentItem env v b = some it) ∧
      if it.written then s.valid it.env it.val else z = true ∧ it.val = s.ops.ty.dflt) :
    ∃ n, s.ops.ty.initItems s.ops.createContext l = .ok n ∧
      s.ops.ty.Follows (l.filter PItem.written) n s.ops.createContext := by
  by_cases hslot : (s.ops.info.array.isSome || (!s.ops.ty.isMarshaler && !s.ops.isPackable)) = true
  · have : l = [] := by
      cases l with
      | nil => rfl
      | cons it l =>
        obtain ⟨⟨env, v, b, h⟩, _⟩ := hitems it (List.mem_cons_self ..)
        unfold FieldOps.contentItem at h
        rw [hslot] at h
        cases h
    subst this
    exact ⟨_, rfl, trivial⟩
  · simp only [Bool.or_eq_true, not_or, Bool.not_eq_true, Bool.and_eq_true, Bool.not_eq_true'] at hslot
    obtain ⟨ha, hp⟩ := hslot
    have ha' : s.ops.info.array = none := by simpa using ha
    obtain ⟨_, hcod⟩ := hcod
    simp only [ha'] at hcod
    have hpk : s.ops.isPackable = true := by
      cases h : s.ops.isPackable with
      | true => rfl
      | false =>
        rw [h] at hcod hp
        simp only [Bool.true_and, Bool.false_eq_true, if_false] at hcod
        have hm := hcod.2 trivial
        rw [hm] at hp
        simp at hp
    rw [hpk] at hcod
    simp only [Bool.and_self, if_true] at hcod
    have hcr : s.ops.createContext = s.ops.ty.createContext := by
      simp [FieldOps.createContext, ha, hpk]
    rw [hcr]
    exact hcod l (fun it hit => (hitems it hit).2)

/-- The shape of optional fields. -/
theorem FieldSpec.Valid.shape {s : FieldSpec} {env : Env} {v : Val} (h : s.Valid env v) :
    s.ops.info.optional = true → s.ops.present env = true → v = .none ∨ ∃ x, v = .some x := by
  intro ho hp
  unfold FieldSpec.Valid FieldOps.Valid FieldInfo.FieldValid at h
  rw [← FieldOps.present_eq, if_pos hp, if_pos ho] at h
  rcases h with h | ⟨x, h, _⟩
  · exact .inl h
  · exact .inr ⟨x, h⟩

/-! ### Structures -/

theorem ValidFields.get {ps : List Val} {ss : List FieldSpec} {done vs : List Val}
    (h : ValidFields ps ss done vs) {j : Nat} {s : FieldSpec} (hs : ss[j]? = some s) :
    ∃ v, vs[j]? = some v ∧ s.Valid ⟨ps, done ++ vs.take j⟩ v := by
  induction ss generalizing done vs j with
  | nil => simp at hs
  | cons s0 ss ih =>
    obtain ⟨v, vs', rfl, h1, h2⟩ := h
    cases j with
    | zero => simp at hs; subst hs; exact ⟨v, rfl, by simpa using h1⟩
    | succ j =>
      obtain ⟨v', hv', hval⟩ := ih h2 (j := j) (by simpa using hs)
      exact ⟨v', by simpa using hv', by simpa using hval⟩

theorem fields_packed (cfg : Cfg) {ps : List Val} {all : List FieldSpec} {z : Bool}
    (hcod : ∀ s ∈ all, s.Codable true z) {whole : List Val} {R : Nat → List PItem}
    {c c' : Option DeltaContext} (ss : List FieldSpec) (pre : List FieldSpec) (done vs : List Val)
    (hall : all = pre ++ ss) (hwhole : whole = done ++ vs) (hlen : pre.length = done.length)
    (hv : ValidFields ps ss done vs) {cws crs : List Node}
    (hrel : Rel (opsOf all) (fun j => if j < done.length then R j else
      (itemAt (opsOf all) (fun j => ⟨ps, whole.take j⟩) whole true j).toList ++ R j) cws crs)
    (before : List Bool) :
    ∃ bits cws' crs', encodeFields true ps (opsOf ss) done.length done vs (.mk cws c) ⟨before⟩ =
        .ok (⟨before ++ bits⟩, .mk cws' c) ∧
      (∀ after, decodeFields cfg true ps (opsOf ss) done.length done ((opsOf ss).map FieldOps.dflt)
        (.mk crs c') ⟨before.length, bits ++ after⟩ =
        .ok ((whole, .mk crs' c'), ⟨before.length + bits.length, after⟩)) ∧
      Rel (opsOf all) R cws' crs' := by
  induction ss generalizing pre done vs cws crs before with
  | nil =>
    cases hv
    simp only [List.append_nil] at hall hwhole
    subst hall hwhole
    refine ⟨[], cws, crs, by simp [opsOf, encodeFields], fun after => by
      simp [opsOf, decodeFields], hrel.congr (fun j hj => ?_)⟩
    have : j < whole.length := by rw [← hlen]; simpa [opsOf] using hj
    simp [this]
  | cons s ss ih =>
    obtain ⟨v, vs, rfl, h1, h2⟩ := hv
    have hi : all[done.length]? = some s := by rw [hall, ← hlen]; simp
    have hif : (opsOf all)[done.length]? = some s.ops := by simp [opsOf, hi]
    have hvi : whole[done.length]? = some v := by rw [hwhole]; simp
    have htake : whole.take done.length = done := by rw [hwhole]; simp
    have hlt : done.length < (opsOf all).length := (List.getElem?_eq_some_iff.1 hif).1
    have hcw := List.getElem?_eq_getElem (l := cws) (i := done.length) (hrel.1.symm ▸ hlt)
    have hcr := List.getElem?_eq_getElem (l := crs) (i := done.length) (hrel.2.1.symm ▸ hlt)
    have hfol := hrel.2.2 _ _ _ _ hif hcw hcr
    simp only [Nat.lt_irrefl, if_false, itemAt, hif, hvi, htake] at hfol
    obtain ⟨b1, cw', cr', e1, d1, f1⟩ := FieldOps.field_packed cfg s.ops
      (hcod s (by rw [hall]; simp)) h1 (c := c) (c' := c') hcw hcr hfol before
    have hrel' : Rel (opsOf all) (fun j => if j < (done ++ [v]).length then R j else
        (itemAt (opsOf all) (fun j => ⟨ps, whole.take j⟩) whole true j).toList ++ R j)
        (cws.set done.length cw') (crs.set done.length cr') := by
      refine hrel.update (fun j hj => ?_) (fun f hf => ?_)
      · have : (j < (done ++ [v]).length) ↔ (j < done.length) := by simp; omega
        simp only [this]
      · rw [hif] at hf; cases hf
        simp only [List.length_append, List.length_cons, List.length_nil]
        rw [if_pos (by omega)]
        exact f1
    obtain ⟨b2, cws', crs', e2, d2, f2⟩ := ih (pre ++ [s]) (done ++ [v]) vs (by simp [hall])
      (by simp [hwhole]) (by simp [hlen]) h2 hrel' (before ++ b1)
    simp only [List.length_append, List.length_cons, List.length_nil] at e2 d2
    refine ⟨b1 ++ b2, cws', crs', ?_, fun after => ?_, f2⟩
    · simp only [opsOf, List.map_cons, encodeFields, e1, Res.ok_bind] at e2 ⊢
      rw [e2, List.append_assoc]
    · have := d2 after
      simp only [opsOf, List.map_cons, decodeFields, List.append_assoc, d1, Res.ok_bind,
        List.length_append] at this ⊢
      rw [this]
      simp [Nat.add_assoc]

theorem fields_init {ps : List Val} {all : List FieldSpec} {whole : List Val}
    {R : Nat → List PItem} {b : Bool} {c : Option DeltaContext} {ns : List Node}
    (ss : List FieldSpec) (pre : List FieldSpec) (done vs : List Val)
    (hall : all = pre ++ ss) (hwhole : whole = done ++ vs) (hlen : pre.length = done.length)
    (hlen2 : ss.length = vs.length)
    (hshape : ∀ (j : Nat) (s : FieldSpec) (v : Val), all[j]? = some s → whole[j]? = some v → s.ops.info.optional = true →
      s.ops.present ⟨ps, whole.take j⟩ = true → v = .none ∨ ∃ x, v = .some x)
    {cs : List Node}
    (ht : Target (opsOf all) (fun j => if j < done.length then R j else
      (itemAt (opsOf all) (fun j => ⟨ps, whole.take j⟩) whole b j).toList ++ R j) cs ns) :
    ∃ cs', initFields ps (opsOf ss) done.length done vs (.mk cs c) = .ok (.mk cs' c) ∧
      Target (opsOf all) R cs' ns := by
  induction ss generalizing pre done vs cs with
  | nil =>
    cases vs with
    | cons _ _ => simp at hlen2
    | nil =>
      simp only [List.append_nil] at hall hwhole
      subst hall hwhole
      refine ⟨cs, by simp [opsOf, initFields], ht.congr (fun j hj => ?_)⟩
      have : j < whole.length := by rw [← hlen]; simpa [opsOf] using hj
      simp [this]
  | cons s ss ih =>
    cases vs with
    | nil => simp at hlen2
    | cons v vs =>
      have hi : all[done.length]? = some s := by rw [hall, ← hlen]; simp
      have hif : (opsOf all)[done.length]? = some s.ops := by simp [opsOf, hi]
      have hvi : whole[done.length]? = some v := by rw [hwhole]; simp
      have htake : whole.take done.length = done := by rw [hwhole]; simp
      have hlt : done.length < (opsOf all).length := (List.getElem?_eq_some_iff.1 hif).1
      have hc := List.getElem?_eq_getElem (l := cs) (i := done.length) (by rw [ht.1]; exact hlt)
      have hn := List.getElem?_eq_getElem (l := ns) (i := done.length) (by rw [ht.2.1]; exact hlt)
      have hini := ht.2.2 _ _ _ _ hif hc hn
      simp only [Nat.lt_irrefl, if_false, itemAt, hif, hvi, htake] at hini
      have hsh := hshape _ _ _ hi hvi
      rw [htake] at hsh
      obtain ⟨c1, e1, f1⟩ := FieldOps.field_init s.ops (c := c) hsh hc hini
      have ht' : Target (opsOf all) (fun j => if j < (done ++ [v]).length then R j else
          (itemAt (opsOf all) (fun j => ⟨ps, whole.take j⟩) whole b j).toList ++ R j)
          (cs.set done.length c1) ns := by
        refine ht.update (fun j hj => ?_) (fun f n hf hn' => ?_)
        · have : (j < (done ++ [v]).length) ↔ (j < done.length) := by simp; omega
          simp only [this]
        · rw [hif] at hf; cases hf
          rw [hn] at hn'; cases hn'
          simp only [List.length_append, List.length_cons, List.length_nil]
          rw [if_pos (by omega)]
          exact f1
      obtain ⟨cs', e2, f2⟩ := ih (pre ++ [s]) (done ++ [v]) vs (by simp [hall])
        (by simp [hwhole]) (by simp [hlen]) (by simpa using hlen2) ht'
      simp only [List.length_append, List.length_cons, List.length_nil] at e2
      refine ⟨cs', ?_, f2⟩
      simp only [opsOf, List.map_cons, initFields, e1, Res.ok_bind] at e2 ⊢
      exact e2

theorem ValidFields.length {ps : List Val} {ss : List FieldSpec} {done vs : List Val}
    (h : ValidFields ps ss done vs) : vs.length = ss.length := by
  induction ss generalizing done vs with
  | nil => cases h; rfl
  | cons s ss ih =>
    obtain ⟨v, vs', rfl, _, h2⟩ := h
    simp [ih h2]

/-- Structures can be packed. -/
theorem struct_packs (cfg : Cfg) {params : List Val} {ss : List FieldSpec} {z : Bool}
    (hcod : ∀ s ∈ ss, s.Codable true z) :
    (structCodec cfg params (opsOf ss)).ops.PacksAll
      (fun _ v => ∃ ps vs, v = .obj ps vs ∧ ValidFields ps ss [] vs) z := by
  intro its hits
  -- what each item looks like
  have hlook : ∀ it ∈ its, ∃ ps vs, it.val = .obj ps vs ∧ vs.length = ss.length ∧
      (it.written = true → ValidFields ps ss [] vs) ∧
      (it.written = false → z = true ∧ vs = (opsOf ss).map FieldOps.dflt) := by
    intro it hit
    have h := hits it hit
    cases hw : it.written with
    | true =>
      rw [hw, if_pos rfl] at h
      obtain ⟨ps, vs, h1, h2⟩ := h
      exact ⟨ps, vs, h1, h2.length, fun _ => h2, by simp⟩
    | false =>
      rw [hw, if_neg (by simp)] at h
      exact ⟨params, _, h.2, by simp [opsOf], by simp, fun _ => ⟨h.1, rfl⟩⟩
  have hshape : ∀ it ∈ its, ∀ ps vs, it.val = .obj ps vs →
      ∀ (j : Nat) (s : FieldSpec) (v : Val), ss[j]? = some s → vs[j]? = some v → s.ops.info.optional = true →
      s.ops.present ⟨ps, vs.take j⟩ = true → v = .none ∨ ∃ x, v = .some x := by
    intro it hit ps vs hval j s v hs hv ho hp
    obtain ⟨ps', vs', h1, _, h3, h4⟩ := hlook it hit
    rw [hval] at h1; cases h1
    cases hw : it.written with
    | true =>
      obtain ⟨v', hv', hval'⟩ := (h3 hw).get hs
      rw [hv] at hv'; cases hv'
      exact FieldSpec.Valid.shape hval' ho hp
    | false =>
      obtain ⟨_, rfl⟩ := h4 hw
      simp only [opsOf, List.getElem?_map, hs, Option.map_some] at hv
      cases hv
      left; simp [FieldOps.dflt, ho]
  refine composite_packs (fs := opsOf ss) (own := none) rfl
    (fun it j => match it.val with
      | .obj ps vs => itemAt (opsOf ss) (fun j => ⟨ps, vs.take j⟩) vs it.written j
      | _ => none) ?_ ?_ ?_ ?_
  · intro it hit hw j x hx
    obtain ⟨ps, vs, h1, _, _, h4⟩ := hlook it hit
    obtain ⟨_, rfl⟩ := h4 hw
    simp only [h1, itemAt] at hx
    cases hf : (opsOf ss)[j]? with
    | none => simp [hf] at hx
    | some f =>
      simp only [hf, List.getElem?_map, Option.map_some] at hx
      rw [(FieldOps.contentItem_dflt f hx).2, hw]
  · intro j f hf
    obtain ⟨s, hs, rfl⟩ : ∃ s, ss[j]? = some s ∧ s.ops = f := by
      simp only [opsOf, List.getElem?_map, Option.map_eq_some_iff] at hf
      exact hf
    refine child_packs (s := s) (hcod s (List.mem_of_getElem? hs)) (fun x hx => ?_)
    simp only [List.mem_filterMap] at hx
    obtain ⟨it, hit, hx⟩ := hx
    obtain ⟨ps, vs, h1, h2, h3, h4⟩ := hlook it hit
    simp only [h1, itemAt, hf] at hx
    have hjv := List.getElem?_eq_getElem (l := vs) (i := j) (by
      rw [h2]; exact (List.getElem?_eq_some_iff.1 hs).1)
    simp only [hjv] at hx
    refine ⟨⟨_, _, _, hx⟩, ?_⟩
    cases hw : it.written with
    | true =>
      obtain ⟨v', hv', hval'⟩ := (h3 hw).get hs
      rw [hjv] at hv'; cases hv'
      obtain ⟨a1, a2⟩ := FieldOps.contentItem_valid s.ops (valid := s.valid) hval' hx
      rw [a2, hw, if_pos rfl]
      exact a1
    | false =>
      obtain ⟨hz, rfl⟩ := h4 hw
      simp only [List.getElem?_map, hf, Option.map_some, Option.some.injEq] at hjv
      rw [← hjv] at hx
      obtain ⟨a1, a2⟩ := FieldOps.contentItem_dflt s.ops hx
      rw [a2, hw, if_neg (by simp)]
      exact ⟨hz, a1⟩
  · intro it hit cs ns R ht
    obtain ⟨ps, vs, h1, h2, h3, h4⟩ := hlook it hit
    simp only [h1] at ht
    obtain ⟨cs', e, t'⟩ := fields_init (c := none) (b := it.written) (R := R) ss [] [] vs rfl rfl rfl h2.symm
      (hshape it hit ps vs h1) (ht.congr (fun j _ => by simp))
    refine ⟨cs', ?_, t'⟩
    simp only [Codec.ops, structCodec, h1]
    exact e
  · intro it hit hw cws crs R hrel before
    obtain ⟨ps, vs, h1, h2, h3, h4⟩ := hlook it hit
    simp only [h1, hw] at hrel
    obtain ⟨bits, cws', crs', e, d, r'⟩ := fields_packed cfg hcod (c := none) (c' := none) (R := R) ss [] [] vs rfl
      rfl rfl (h3 hw) (hrel.congr (fun j hj => by
        simp only [List.length_nil, Nat.not_lt_zero, if_false]
        exact congrArg (· ++ R j) (itemAt_written (by simp)))) before
    refine ⟨bits, cws', crs', ?_, fun after => ?_, r'⟩
    · simp only [Codec.ops, structCodec, h1]
      exact e
    · have := d after
      simp only [List.length_nil] at this
      simp only [Codec.ops, structCodec, h1, Val.params, Val.withParams, this, Res.ok_bind, List.nil_append,
        Res.pure_eq]

end Zs
