import Verif.ScalarRead
import Verif.SchemaCodec

/-!
# Lemmas: generated readers on arbitrary input
-/

namespace Zs

open Spec

/-- What is claimed about the reader of a type or field. -/
structure Claim where
  steady : Prop
  sound : Prop
  takes : Prop
  compact : Prop
  weight : Nat

/-- What is known after `k` bits have been read as the value `v`. -/
structure Claim.Post (c : Claim) (valid : Val → Prop) (k : Nat) (v : Val) : Prop where
  valid : c.sound → k < 2 ^ 31 → valid v
  takes : c.takes → 1 ≤ k
  light : c.compact → v.size ≤ c.weight * (k + 1)

theorem Claim.Post.later {c : Claim} {valid : Val → Prop} {k : Nat} {v : Val} (h : c.Post valid k v)
    (j : Nat) : c.Post valid (j + k) v := by
  refine ⟨fun hs hk => h.valid hs (by omega), fun ht => by have := h.takes ht; omega, fun hc => ?_⟩
  exact Nat.le_trans (h.light hc) (Nat.mul_le_mul_left _ (by omega))

/-- Reading a type into a fresh value. -/
structure ReadGood (t : TypeOps) (c : Claim) (soundPacked : Prop) (valid : Env → Val → Prop) : Prop
    where
  dflt : t.dflt.size ≤ c.weight
  read : ∀ env ps, Reads c.steady
    (c.Post (fun v => valid env v ∧ v.params = (t.dflt.withParams ps).params))
    (t.read env (t.dflt.withParams ps))
  elem : ∀ env ps, Reads c.steady
    (c.Post (fun v => valid env v ∧ v.params = (t.dflt.withParams ps).params))
    (fun r => (t.arrayTrait env).read r (t.dflt.withParams ps))
  packed : ∀ env ps n, Reads False (fun k (p : Val × Node) => soundPacked → k < 2 ^ 31 →
      valid env p.1 ∧ p.1.params = (t.dflt.withParams ps).params)
    (t.readPacked env (t.dflt.withParams ps) n)
  coherent : t.Coherent

/-! ## Steps -/

theorem reads_alignElem {α : Type} {np : Prop} {q : Nat → α → Prop} (offsets : Bool)
    {g : Reader → Res (α × Reader)} (hg : Reads np (fun k b => ∀ j, q (j + k) b) g) :
    Reads np q (fun r => alignElemReader offsets r >>= g) :=
  Reads.after (Local.alignElem offsets) (fun _ r => by
    cases offsets with
    | false => simp [alignElemReader]
    | true => exact NeverPanics.align 8 (by decide) r) hg

theorem FieldOps.reads_align (f : FieldOps) {α : Type} {np : Prop} {q : Nat → α → Prop}
    {g : Reader → Res (α × Reader)} (hg : Reads np (fun k b => ∀ j, q (j + k) b) g) :
    Reads np q (fun r => f.alignReader r >>= g) := by
  have h1 : ∀ {q : Nat → α → Prop}, Reads np (fun k b => ∀ j, q (j + k) b) g →
      Reads np q (fun r => (if f.info.offset = .plain then Zs.alignReader r 8 else pure r) >>= g) := by
    intro q hg
    by_cases ho : f.info.offset = .plain
    · simp only [ho, if_true]
      exact Reads.after (Local.align 8) (fun _ r => NeverPanics.align 8 (by decide) r) hg
    · simp only [ho, if_false, Res.pure_eq, Res.ok_bind]
      exact hg.mono id (fun k b h => by have := h 0; rwa [Nat.zero_add] at this)
  have h2 : Reads np q (fun r => (if f.info.alignment = 0 then pure r
      else Zs.alignReader r f.info.alignment) >>= fun r =>
        (if f.info.offset = .plain then Zs.alignReader r 8 else pure r) >>= g) := by
    by_cases ha : f.info.alignment = 0
    · simp only [ha, if_true, Res.pure_eq, Res.ok_bind]
      exact h1 hg
    · simp only [ha, if_false]
      refine Reads.after (Local.align _) (fun _ r => NeverPanics.align _ ha r) (h1 ?_)
      refine hg.mono id (fun k b h j i => ?_)
      have := h (i + j)
      rwa [Nat.add_assoc] at this
  simpa only [FieldOps.alignReader, bind_assoc] using h2

/-- Reading into a child of the packing node. -/
theorem reads_onChild {α : Type} {q : Nat → α → Prop} {g : Node → Reader → Res ((α × Node) × Reader)}
    (hg : ∀ c, Reads False (fun k (p : α × Node) => q k p.1) (g c)) (n : Node) (i : Nat) :
    Reads False (fun k (p : α × Node) => q k p.1) (fun r =>
      n.onChild i (fun c => g c r >>= fun x => .ok ((x.1.1, x.2), x.1.2)) >>= fun y =>
        .ok ((y.1.1, y.2), y.1.2)) := by
  obtain ⟨cs, own⟩ := n
  unfold Node.onChild
  cases hc : cs[i]? with
  | none =>
    simp only [hc, Res.panic_bind]
    exact Reads.panic id
  | some child =>
    simp only [hc, bind_assoc, Res.ok_bind, Res.pure_eq]
    exact Reads.map (q := fun k (p : α × Node) => q k p.1)
      (fun p : α × Node => (p.1, Node.mk (cs.set i p.2) own)) (hg child) (fun k a h => h)

/-! ## Arrays -/

/-- The elements `xs`, the first of which has the index `i`, were read with `k` bits. -/
def AllRead (one : Nat → Nat → Val → Prop) : Nat → List Val → Nat → Prop
  | _, [], _ => True
  | i, x :: xs, k => ∃ k1 k2, k = k1 + k2 ∧ one i k1 x ∧ AllRead one (i + 1) xs k2

theorem AllRead.length {one : Nat → Nat → Val → Prop} (h1 : ∀ i k x, one i k x → 1 ≤ k) {i : Nat}
    {xs : List Val} {k : Nat} (h : AllRead one i xs k) : xs.length ≤ k := by
  induction xs generalizing i k with
  | nil => exact Nat.zero_le _
  | cons x xs ih =>
    obtain ⟨k1, k2, rfl, h2, h3⟩ := h
    have := h1 _ _ _ h2
    have := ih h3
    simp only [List.length_cons]; omega

theorem AllRead.sizes {one : Nat → Nat → Val → Prop} {w : Nat} (h1 : ∀ i k x, one i k x → 1 ≤ k)
    (hw : ∀ i k x, one i k x → x.size ≤ w * (k + 1)) {i : Nat} {xs : List Val} {k : Nat}
    (h : AllRead one i xs k) : Val.sizes xs ≤ 2 * w * k := by
  induction xs generalizing i k with
  | nil => exact Nat.zero_le _
  | cons x xs ih =>
    obtain ⟨k1, k2, rfl, h2, h3⟩ := h
    have a := h1 _ _ _ h2
    have b := hw _ _ _ h2
    have c := ih h3
    have d : w * (k1 + 1) ≤ w * (2 * k1) := Nat.mul_le_mul_left _ (by omega)
    simp only [Val.sizes]
    rw [Nat.mul_add, Nat.mul_comm 2 w, Nat.mul_assoc w 2 k1]
    rw [Nat.mul_comm 2 w] at c
    omega

theorem AllRead.valid {one : Nat → Nat → Val → Prop} {P : Nat → Val → Prop} {m : Nat}
    (h1 : ∀ i k x, one i k x → k < m → P i x) {i : Nat} {xs : List Val} {k : Nat}
    (h : AllRead one i xs k) (hk : k < m) : ∀ j y, xs[j]? = some y → P (i + j) y := by
  induction xs generalizing i k with
  | nil => intro j y hy; simp at hy
  | cons x xs ih =>
    obtain ⟨k1, k2, rfl, h2, h3⟩ := h
    intro j y hy
    cases j with
    | zero => cases hy; exact h1 _ _ _ h2 (by omega)
    | succ j =>
      have := ih h3 (by omega) j y (by simpa using hy)
      rwa [Nat.add_assoc, Nat.add_comm 1 j] at this

namespace FieldOps

variable (cfg : Cfg) (f : FieldOps)

theorem reads_elems {np : Prop} {one : Nat → Nat → Val → Prop} {a : ArrayDef Val} {env : Env}
    (h : ∀ index node, Reads np (fun k (p : Val × Node) => one index k p.1)
      (fun r => a.readOneElement r node (f.initial env index) f.indexed))
    (len index : Nat) (node : Node) (data : Vec Val) :
    Reads np (fun k v => ∃ xs, v.items = data.items ++ xs ∧ xs.length = len ∧
      AllRead one index xs k) (fun r => f.readParamAll cfg a env len index node data r) := by
  induction len generalizing index node data with
  | zero => exact Reads.pure _ ⟨[], by simp, rfl, trivial⟩
  | succ len ih =>
    refine Reads.bind (g := fun p r => f.readParamAll cfg a env len (index + 1) p.2
      (data.push cfg.minCap p.1) r) (h index node) (fun p => ?_)
    refine (ih (index + 1) p.2 _).mono id (fun k v hv j hj => ?_)
    obtain ⟨xs, h1, h2, h3⟩ := hv
    refine ⟨p.1 :: xs, ?_, by simp [h2], j, k, rfl, hj, h3⟩
    have e : (data.push cfg.minCap p.1).items = data.items ++ [p.1] := by
      unfold Vec.push Vec.reserve; simp only; split <;> rfl
    rw [h1, e, List.append_assoc]; rfl

/-- Parameters of elements and of the value of a field. -/
theorem initial_params {env : Env} {i : Nat}
    (h : f.info.args = [] ∨ ∀ ps, (f.ty.dflt.withParams ps).params = ps) :
    ∃ ps, f.initial env i = f.ty.dflt.withParams ps ∧
      (f.ty.dflt.withParams ps).params = f.info.expectedParams f.ty.dflt env i := by
  unfold initial FieldInfo.expectedParams
  by_cases ha : f.info.args = []
  · refine ⟨f.ty.dflt.params, ?_, ?_⟩
    · rw [if_pos (by simp [ha]), Val.withParams_params]
    · rw [if_pos ha, Val.withParams_params]
  · refine ⟨f.argValues env i, ?_, ?_⟩
    · rw [if_neg (by simpa using ha)]
    · rw [if_neg ha]
      rcases h with h | h
      · exact absurd h ha
      · rw [h]; rfl

theorem initial_fresh (env : Env) (i : Nat) :
    ∃ ps, f.initial env i = f.ty.dflt.withParams ps := by
  unfold initial
  by_cases ha : f.info.args.isEmpty = true
  · exact ⟨f.ty.dflt.params, by rw [if_pos ha, Val.withParams_params]⟩
  · exact ⟨_, by rw [if_neg ha]⟩

/-- The claim `d` about a field follows from the claim `c` about its type. -/
structure Follows (packed : Bool) (c : Claim) (soundPacked : Prop) (d : Claim) : Prop where
  steady : d.steady → (match f.info.array with
    | none => (packed && f.isPackable) = false
    | some a => ((a.isPacked || packed) && f.isPackable) = false) ∧ c.steady
  sound : d.sound → (f.info.args = [] ∨ ∀ ps, (f.ty.dflt.withParams ps).params = ps) ∧
    match f.info.array with
    | none => if packed && f.isPackable then soundPacked else c.sound
    | some a => if (a.isPacked || packed) && f.isPackable then a.length.isSome = true ∧ soundPacked
        else (a.length.isSome = true ∨ c.takes) ∧ c.sound
  takes : d.takes → f.info.clause = none ∧ (f.info.optional = true ∨
    match f.info.array with
    | none => (packed && f.isPackable) = false ∧ c.takes
    | some a => a.length.isNone = true)
  compact : d.compact → (match f.info.array with
    | none => (packed && f.isPackable) = false
    | some a => ((a.isPacked || packed) && f.isPackable) = false ∧ c.takes) ∧ c.compact
  weight : 2 * c.weight + 2 ≤ d.weight

variable {cfg f} {packed : Bool} {c d : Claim} {sp : Prop} {valid : Env → Val → Prop}

/-- The claim about the content of a field: nothing is known of its length if it is optional. -/
def contentClaim (f : FieldOps) (packed : Bool) (c d : Claim) : Claim where
  steady := d.steady
  sound := d.sound
  takes := match f.info.array with
    | none => (packed && f.isPackable) = false ∧ c.takes
    | some a => a.length.isNone = true
  compact := d.compact
  weight := 2 * c.weight + 1

theorem reads_content (hg : ReadGood f.ty c sp valid) (hf : f.Follows packed c sp d) (i : Nat)
    (env : Env) (n : Node) :
    Reads d.steady (fun k (p : Val × Node) => (f.contentClaim packed c d).Post
        (f.info.ContentValid valid f.ty.dflt env) k p.1)
      (f.decodeContent cfg packed i env f.contentDflt n) := by
  have hw : c.weight ≤ 2 * c.weight + 1 := by omega
  unfold decodeContent contentDflt
  cases ha : f.info.array with
  | none =>
    have hs := hf.steady
    have hso := hf.sound
    have hco := hf.compact
    simp only [ha] at hs hso hco
    cases hp : packed && f.isPackable with
    | false =>
      simp only [hp] at hs hso hco
      obtain ⟨ps, hps⟩ := f.initial_fresh env 0
      have h := hg.read env ps
      rw [← hps] at h
      have h' : Reads d.steady (fun k v => (f.contentClaim packed c d).Post
          (f.info.ContentValid valid f.ty.dflt env) k v) (f.ty.read env (f.initial env 0)) := by
        refine h.mono (fun hd => (hs hd).2) (fun k v hv => ⟨fun hd hk => ?_, fun ht => ?_, fun hd => ?_⟩)
        · obtain ⟨h1, h2⟩ := hso hd
          obtain ⟨ps', hps', e⟩ := f.initial_params (env := env) (i := 0) h1
          have := hv.valid h2 hk
          unfold FieldInfo.ContentValid
          rw [ha]
          exact ⟨this.1, by rw [this.2, ← e, hps']⟩
        · simp only [contentClaim, ha] at ht
          exact hv.takes ht.2
        · exact Nat.le_trans (hv.light (hco hd).2) (Nat.mul_le_mul_right _ hw)
      exact Reads.map (fun v => (v, n)) h' (fun k a h => h)
    | true =>
      simp only [hp] at hs hso hco
      obtain ⟨ps, hps⟩ := f.initial_fresh env 0
      have h : ∀ c, Reads False _ (f.ty.readPacked env (f.initial env 0) c) :=
        fun c => by rw [hps]; exact hg.packed env ps c
      have := reads_onChild (q := fun k v => sp → k < 2 ^ 31 → valid env v ∧
        v.params = (f.ty.dflt.withParams ps).params) h n i
      refine Reads.mono (np' := d.steady) this (fun hd => absurd (hs hd).1 (by decide))
        (fun k p hv => ⟨fun hd hk => ?_, fun ht => ?_, fun hd => ?_⟩)
      · obtain ⟨h1, h2⟩ := hso hd
        obtain ⟨ps', hps', e⟩ := f.initial_params (env := env) (i := 0) h1
        have := hv h2 hk
        unfold FieldInfo.ContentValid
        rw [ha]
        exact ⟨this.1, by rw [this.2, ← e, ← hps, hps']⟩
      · simp only [contentClaim, ha, hp] at ht
        exact absurd ht.1 (by decide)
      · exact absurd (hco hd).1 (by decide)
  | some a =>
    simp only [Option.isSome_some, if_true]
    have hs := hf.steady
    have hso := hf.sound
    have hco := hf.compact
    simp only [ha] at hs hso hco
    generalize hA : f.arrayDef packed env a = A
    have hAt : A.arrayTrait = f.ty.arrayTrait env := by rw [← hA]; rfl
    have hAp : A.isPacked = ((a.isPacked || packed) && f.isPackable) := by rw [← hA]; rfl
    have hAf : A.fixedSize = a.length.map (fun e => e env) := by rw [← hA]; rfl
    rw [← hAp] at hs hso hco
    -- the elements
    let good : Prop := if A.isPacked then sp else c.sound
    let one : Nat → Nat → Val → Prop := fun index k x =>
      (good → k < 2 ^ 31 → ∃ ps, f.initial env index = f.ty.dflt.withParams ps ∧
        valid env x ∧ x.params = (f.ty.dflt.withParams ps).params) ∧
      (A.isPacked = false → c.takes → 1 ≤ k) ∧
      (A.isPacked = false → c.compact → x.size ≤ c.weight * (k + 1))
    have hone : ∀ index node, Reads d.steady (fun k (p : Val × Node) => one index k p.1)
        (fun r => A.readOneElement r node (f.initial env index) f.indexed) := by
      intro index node
      obtain ⟨ps, hps⟩ := f.initial_fresh env index
      unfold ArrayDef.readOneElement
      refine reads_alignElem _ ?_
      cases hp : A.isPacked with
      | true =>
        simp only [if_true]
        have h := hg.packed env ps node
        rw [← hps] at h
        have e : (fun r => A.arrayTrait.readPacked node r (f.initial env index)) =
            f.ty.readPacked env (f.initial env index) node := by
          funext r; rw [hAt, hg.coherent.read]
        have h2 := h
        rw [← e] at h2
        refine h2.mono (fun hd => absurd (hs hd).1 (by simp [hp])) (fun k p hv j =>
          ⟨fun hgd hk => ⟨ps, hps, hps ▸ hv (by simpa [good, hp] using hgd) (by omega)⟩,
            fun hp' => absurd hp' (by simp [hp]), fun hp' => absurd hp' (by simp [hp])⟩)
      | false =>
        simp only [Bool.false_eq_true, if_false]
        have h := hg.elem env ps
        rw [← hps, ← hAt] at h
        have h2 := h.mono (np' := d.steady) (fun hd => (hs hd).2) (fun k v hv => hv)
        refine Reads.map (fun v => (v, node)) h2 (fun k v hv j => ⟨fun hgd hk => ⟨ps, hps, ?_⟩,
          fun _ ht => (hv.later j).takes ht, fun _ hc => (hv.later j).light hc⟩)
        rw [← hps]
        exact hv.valid (by simpa [good, hp] using hgd) (by omega)
    have helems := fun (len : Nat) (data : Vec Val) =>
      f.reads_elems cfg hone len 0 A.arrayTrait.createContext data
    -- the length
    have hlen : Reads d.steady (fun k len => (∀ e, A.fixedSize = some e → len = e) ∧
        (A.fixedSize = none → 8 ≤ k)) A.zserioReadArrayLength := by
      have e : A.zserioReadArrayLength = fun r => match A.fixedSize with
        | some expected => .ok (expected, r)
        | none => readVarsize r := rfl
      rw [e]
      cases hfx : A.fixedSize with
      | some e =>
        refine Reads.pure e ?_
        exact ⟨fun e' he => Option.some.inj he, fun h => by cases h⟩
      | none =>
        exact reads_varsize.mono (fun _ => trivial) (fun k len h =>
          ⟨fun e he => (by cases he), fun _ => h.1⟩)
    -- the array
    have harr : Reads d.steady (fun k v => ∃ xs, v = Val.list xs ∧
        (∀ e, A.fixedSize = some e → xs.length = e) ∧ (A.fixedSize = none → 8 ≤ k) ∧
        AllRead one 0 xs k) (fun r => f.decodeArray cfg A env ⟨[], 0⟩ r) := by
      simp only [decodeArray_eq]
      refine Reads.bind (g := fun len r => f.readParamAll cfg A env len 0 A.arrayTrait.createContext
        (ArrayDef.prepare cfg.minCap cfg.chunk ⟨[], 0⟩ len) r >>= fun q => .ok (Val.list q.1.items, q.2))
        hlen (fun len => ?_)
      have hm := helems len (ArrayDef.prepare cfg.minCap cfg.chunk ⟨[], 0⟩ len)
      refine Reads.map (fun q : Vec Val => Val.list q.items) hm (fun k q hq => ?_)
      intro j hj
      obtain ⟨xs, h1, h2, h3⟩ := hq
      have e : (ArrayDef.prepare cfg.minCap cfg.chunk (⟨[], 0⟩ : Vec Val) len).items = [] := by
        unfold ArrayDef.prepare Vec.clear Vec.reserve; simp only; split <;> rfl
      rw [e, List.nil_append] at h1
      refine ⟨xs, by rw [h1], fun e he => by rw [h2]; exact hj.1 e he, fun hn => by
        have := hj.2 hn; omega, ?_⟩
      cases xs with
      | nil => trivial
      | cons x xs =>
        obtain ⟨k1, k2, rfl, h4, h5⟩ := h3
        refine ⟨j + k1, k2, by omega, ⟨fun hgd hk => h4.1 hgd (by omega), fun hp ht => ?_,
          fun hp hc => ?_⟩, h5⟩
        · have := h4.2.1 hp ht; omega
        · exact Nat.le_trans (h4.2.2 hp hc) (Nat.mul_le_mul_left _ (by omega))
    refine Reads.map (fun x => (x, n)) harr (fun k v hv => ⟨fun hd hk => ?_, fun ht => ?_, fun hd => ?_⟩)
    · obtain ⟨xs, rfl, h1, h2, h3⟩ := hv
      obtain ⟨h4, h5⟩ := hso hd
      have hgood : good := by
        show if A.isPacked then sp else c.sound
        cases hp : A.isPacked with
        | true => rw [hp] at h5; exact h5.2
        | false => rw [hp] at h5; exact h5.2
      unfold FieldInfo.ContentValid
      rw [ha]
      refine ⟨xs, rfl, ?_, fun j y hy => ?_⟩
      · unfold LengthFits
        rw [← hAf]
        cases hfx : A.fixedSize with
        | some e => exact (h1 e hfx).symm
        | none =>
          have hnone : a.length.isSome = false := by
            rw [hAf] at hfx
            cases hl : a.length with
            | none => rfl
            | some e => rw [hl] at hfx; cases hfx
          have htk : A.isPacked = false ∧ c.takes := by
            cases hp : A.isPacked with
            | true => rw [hp, hnone] at h5; exact absurd h5.1 (by decide)
            | false =>
              rw [hp, hnone] at h5
              exact ⟨rfl, h5.1.resolve_left (by decide)⟩
          have := AllRead.length (fun i k x ho => ho.2.1 htk.1 htk.2) h3
          show xs.length < 2 ^ 31
          omega
      · have := AllRead.valid (m := 2 ^ 31) (P := fun i y => valid env y ∧
            y.params = f.info.expectedParams f.ty.dflt env i)
          (fun i k x ho hk' => by
            obtain ⟨ps, e1, e2, e3⟩ := ho.1 hgood hk'
            obtain ⟨ps', e4, e5⟩ := f.initial_params (env := env) (i := i) h4
            exact ⟨e2, by rw [e3, ← e1, e4, e5]⟩) h3 hk j y hy
        rwa [Nat.zero_add] at this
    · obtain ⟨xs, rfl, h1, h2, h3⟩ := hv
      simp only [contentClaim, ha] at ht
      have : A.fixedSize = none := by
        rw [hAf]
        cases hl : a.length with
        | none => rfl
        | some e => rw [hl] at ht; cases ht
      have := h2 this
      omega
    · obtain ⟨xs, rfl, h1, h2, h3⟩ := hv
      obtain ⟨⟨hp, ht⟩, hc⟩ := hco hd
      have := AllRead.sizes (w := c.weight) (fun i k x ho => ho.2.1 hp ht)
        (fun i k x ho => ho.2.2 hp hc) h3
      simp only [Val.size, contentClaim]
      rw [Nat.add_mul, Nat.mul_add, Nat.one_mul]
      omega

/-- The default of a field is small. -/
theorem dflt_light (hg : ReadGood f.ty c sp valid) (hf : f.Follows packed c sp d) :
    f.dflt.size ≤ d.weight := by
  have := hf.weight
  have h2 := hg.dflt
  unfold FieldOps.dflt
  split
  · simp only [Val.size]; omega
  · split
    · simp only [Val.size, Val.sizes]; omega
    · omega

/-- Fields. -/
theorem reads_field (hg : ReadGood f.ty c sp valid) (hf : f.Follows packed c sp d) (i : Nat)
    (env : Env) (n : Node) :
    Reads d.steady (fun k (p : Val × Node) => d.Post (f.info.FieldValid valid f.ty.dflt env) k p.1)
      (f.decode cfg packed i env f.dflt n) := by
  have hw := hf.weight
  have hcont := reads_content (cfg := cfg) hg hf i env n
  have hdl := dflt_light hg hf
  have hpe := f.present_eq env
  have small : ∀ k, d.weight ≤ d.weight * (k + 1) := fun k =>
    Nat.le_mul_of_pos_right _ (Nat.succ_pos k)
  unfold decode
  cases hpr : f.present env with
  | false =>
    simp only [Bool.false_eq_true, if_false]
    refine Reads.pure _ ⟨fun _ _ => ?_, fun ht => ?_, fun _ => Nat.le_trans hdl (small 0)⟩
    · unfold FieldInfo.FieldValid
      rw [← hpe, hpr]
      simp only [Bool.false_eq_true, if_false]
      rfl
    · have := (hf.takes ht).1
      rw [this] at hpe
      rw [hpr] at hpe
      cases hpe
  | true =>
    simp only [if_true]
    refine f.reads_align ?_
    have hfv : ∀ v, f.info.FieldValid valid f.ty.dflt env v ↔
        (if f.info.optional then v = .none ∨ ∃ x, v = .some x ∧
          f.info.ContentValid valid f.ty.dflt env x
        else f.info.ContentValid valid f.ty.dflt env v) := by
      intro v
      unfold FieldInfo.FieldValid
      rw [← hpe, hpr]
      simp only [if_true]
    unfold decodeOptional
    cases ho : f.info.optional with
    | false =>
      simp only [Bool.false_eq_true, if_false]
      have e : f.dflt = f.contentDflt := by
        unfold FieldOps.dflt contentDflt
        rw [ho]; rfl
      rw [e]
      refine hcont.mono id (fun k p hp j => ?_)
      refine ⟨fun hd hk => ?_, fun ht => ?_, fun hd => ?_⟩
      · rw [hfv, ho]
        exact hp.valid hd (by omega)
      · have h2 := (hf.takes ht).2
        rw [ho] at h2
        have := hp.takes (h2.resolve_left (by decide))
        omega
      · refine Nat.le_trans (hp.light hd) (Nat.mul_le_mul ?_ (by omega))
        show 2 * c.weight + 1 ≤ d.weight
        omega
    | true =>
      simp only [if_true]
      refine Reads.bind (g := fun present r => if present then
        (f.decodeContent cfg packed i env f.contentDflt n r >>= fun x =>
          .ok ((Val.some x.1.1, x.1.2), x.2)) else .ok ((f.dflt, n), r))
        (reads_bool.mono (fun _ => trivial) (fun _ _ h => h)) (fun present => ?_)
      cases present with
      | false =>
        refine Reads.pure _ (fun j hj l => ⟨fun _ _ => ?_, fun _ => by omega,
          fun _ => Nat.le_trans hdl (small _)⟩)
        rw [hfv, ho]
        simp only [if_true]
        left
        unfold FieldOps.dflt
        rw [ho]; rfl
      | true =>
        refine Reads.map (fun p : Val × Node => (Val.some p.1, p.2)) hcont (fun k p hp j hj l =>
          ⟨fun hd hk => ?_, fun _ => by omega, fun hd => ?_⟩)
        · rw [hfv, ho]
          simp only [if_true]
          exact Or.inr ⟨p.1, rfl, hp.valid hd (by omega)⟩
        · have h1 := hp.light hd
          simp only [contentClaim] at h1
          have h2 : (2 * c.weight + 2) * (k + 1) ≤ d.weight * (l + (j + k) + 1) :=
            Nat.mul_le_mul hw (by omega)
          simp only [Val.size]
          rw [show 2 * c.weight + 2 = 2 * c.weight + 1 + 1 from rfl, Nat.add_mul (2 * c.weight + 1),
            Nat.one_mul] at h2
          omega

end FieldOps

end Zs
