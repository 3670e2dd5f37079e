import Verif.SchemaWireTy
import Verif.WireDet
import Verif.SchemaChoice

/-!
# Lemmas: generated readers accept the layout

The reader of a value is run on bits that have the layout of that value, whoever wrote them.  Nothing is
assumed about the plans of packed arrays but that the numbers fit.
-/

namespace Zs

open Spec

/-! ## Columns -/

/-- The last numbers of the columns after some more numbers. -/
def advance (st : Columns) (nums : List Nat → List Entry) : Columns :=
  fun q => ((nums q).map (·.2)).getLast?.or (st q)

/-- The numbers fit into the widths of the plan. -/
def Storable (plan : Plan) (st : Columns) (nums : List Nat → List Entry) : Prop :=
  ∀ q m, plan q = some m → m ≤ 62 ∧ ColumnFits m ((st q).toList ++ (nums q).map (·.2))

theorem ColumnFits.infix {m : Nat} {p l s : List Int} (h : ColumnFits m (p ++ (l ++ s))) :
    ColumnFits m l := by
  intro i a b ha hb
  have key : ∀ j c, l[j]? = some c → (p ++ (l ++ s))[p.length + j]? = some c := by
    intro j c hc
    rw [List.getElem?_append_right (by omega), Nat.add_sub_cancel_left,
      List.getElem?_append_left (List.getElem?_eq_some_iff.1 hc).1, hc]
  exact h (p.length + i) a b (key i a ha) (by
    have := key (i + 1) b hb
    rw [← Nat.add_assoc] at this
    exact this)

theorem advance_nil (st : Columns) : advance st (fun _ => []) = st := by
  funext q; simp [advance]

theorem advance_append (st : Columns) (a b : List Nat → List Entry) :
    advance (advance st a) b = advance st (fun q => a q ++ b q) := by
  funext q
  simp [advance, List.getLast?_append, Option.or_assoc]

theorem Storable.left {plan : Plan} {st : Columns} {a b : List Nat → List Entry}
    (h : Storable plan st (fun q => a q ++ b q)) : Storable plan st a := by
  intro q m hm
  obtain ⟨h1, h2⟩ := h q m hm
  refine ⟨h1, ColumnFits.infix (p := []) (s := (b q).map (·.2)) ?_⟩
  simpa [List.append_assoc] using h2

theorem Storable.right {plan : Plan} {st : Columns} {a b : List Nat → List Entry}
    (h : Storable plan st (fun q => a q ++ b q)) : Storable plan (advance st a) b := by
  intro q m hm
  obtain ⟨h1, h2⟩ := h q m hm
  refine ⟨h1, ?_⟩
  unfold advance
  rw [List.map_append] at h2
  generalize (a q).map (·.2) = l at h2 ⊢
  cases hl : l.getLast? with
  | none =>
    rw [List.getLast?_eq_none_iff] at hl
    subst hl
    simpa using h2
  | some x =>
    obtain ⟨ys, rfl⟩ := List.getLast?_eq_some_iff.1 hl
    refine ColumnFits.infix (p := (st q).toList ++ ys) (s := []) ?_
    simpa [List.append_assoc] using h2

/-- Numbers below field `i`. -/
def below (i : Nat) (nums : List Nat → List Entry) : List Nat → List Entry := fun q => match q with
  | [] => []
  | j :: r => if j = i then nums r else []

theorem advance_below (i : Nat) (st : Columns) (nums : List Nat → List Entry) :
    advance st (below i nums) = withField i st (advance (fun q => st (i :: q)) nums) := by
  funext q
  cases q with
  | nil => simp [advance, below, withField]
  | cons j r =>
    by_cases hj : j = i
    · subst hj; simp [advance, below, withField]
    · simp [advance, below, withField, hj]

theorem Storable.field {plan : Plan} {st : Columns} {nums : List Nat → List Entry} {i : Nat}
    (h : Storable plan st (below i nums)) :
    Storable (plan.field i) (fun q => st (i :: q)) nums := by
  intro q m hm
  have := h (i :: q) m hm
  simpa [below] using this

/-! ## Context trees of the reader -/

/-- The part of a tree at the end of a path. -/
def Node.sub (n : Node) : List Nat → Option Node
  | [] => some n
  | i :: q => match n.children[i]? with
    | none => none
    | some c => c.sub q

/-- The tree has at least the children and contexts of another one. -/
def Node.Like (n t : Node) : Prop :=
  ∀ q m, t.sub q = some m → ∃ k, n.sub q = some k ∧ (m.context.isSome → k.context.isSome)

theorem Node.Like.refl (n : Node) : n.Like n := fun _ m h => ⟨m, h, id⟩

theorem Node.Like.child {n t d : Node} (h : n.Like t) {i : Nat} (hi : t.children[i]? = some d) :
    ∃ c, n.children[i]? = some c ∧ c.Like d := by
  obtain ⟨c, hc, _⟩ := h [i] d (by simp [Node.sub, hi])
  cases hn : n.children[i]? with
  | none => simp [Node.sub, hn] at hc
  | some c' =>
    refine ⟨c', rfl, fun q m hm => ?_⟩
    obtain ⟨k, hk, hs⟩ := h (i :: q) m (by simp [Node.sub, hi, hm])
    exact ⟨k, by simpa [Node.sub, hn] using hk, hs⟩

theorem Node.Like.set {cs : List Node} {own : Option DeltaContext} {t c d : Node}
    (h : (Node.mk cs own).Like t) {i : Nat} (hi : t.children[i]? = some d) (hc : c.Like d) :
    (Node.mk (cs.set i c) own).Like t := by
  obtain ⟨c0, h0, _⟩ := h.child hi
  have hlt : i < cs.length := (List.getElem?_eq_some_iff.1 h0).1
  intro q m hm
  cases q with
  | nil =>
    obtain ⟨k, hk, hs⟩ := h [] m hm
    refine ⟨_, rfl, fun hm => ?_⟩
    have := hs hm
    simp only [Node.sub, Option.some.injEq] at hk
    subst hk
    exact this
  | cons j r =>
    by_cases hj : j = i
    · subst hj
      simp only [Node.sub, hi] at hm
      obtain ⟨k, hk, hs⟩ := hc r m hm
      exact ⟨k, by simp [Node.sub, Node.children, List.getElem?_set_self hlt, hk], hs⟩
    · obtain ⟨k, hk, hs⟩ := h (j :: r) m hm
      refine ⟨k, ?_, hs⟩
      simp only [Node.sub, Node.children, List.getElem?_set_ne (Ne.symm hj)] at hk ⊢
      exact hk

/-- A context of the reader agrees with a column. -/
def ReadColumn (md : Mode) (c : DeltaContext) (plan : Option Nat) (last : Option Int) : Prop :=
  (c.processingStarted = false ∧ last = none) ∨
  (c.processingStarted = true ∧ plan = c.decision ∧ ∃ x, last = some x ∧
    c.previousElement = asU64 x ∧ (md = .release ∨ (-2 ^ 63 ≤ x ∧ x < 2 ^ 63)))

/-- A context tree of the reader agrees with the columns. -/
def Node.Sees (md : Mode) (n : Node) (plan : Plan) (st : Columns) : Prop :=
  ∀ q c, n.at q = some c → ReadColumn md c (plan q) (st q)

theorem Node.Sees.child {md : Mode} {n : Node} {plan : Plan} {st : Columns} (h : n.Sees md plan st)
    {i : Nat} {c : Node} (hc : n.children[i]? = some c) :
    c.Sees md (plan.field i) (fun q => st (i :: q)) := by
  intro q d hd
  exact h (i :: q) d (by simp [Node.at, hc, hd])

theorem Node.Sees.set {md : Mode} {cs : List Node} {own : Option DeltaContext} {plan : Plan}
    {st sub : Columns} (h : (Node.mk cs own).Sees md plan st) {i : Nat} {c : Node}
    (hi : ∃ d, cs[i]? = some d) (hc : c.Sees md (plan.field i) sub) :
    (Node.mk (cs.set i c) own).Sees md plan (withField i st sub) := by
  obtain ⟨d, hi⟩ := hi
  have hlt : i < cs.length := (List.getElem?_eq_some_iff.1 hi).1
  intro q e he
  cases q with
  | nil => exact h [] e he
  | cons j r =>
    simp only [Node.at, Node.children] at he
    by_cases hj : j = i
    · subst hj
      rw [List.getElem?_set_self hlt] at he
      rw [withField_self]
      exact hc r e he
    · rw [List.getElem?_set_ne (Ne.symm hj)] at he
      rw [withField_other (by intro r' e'; cases e'; exact hj rfl)]
      exact h (j :: r) e he

theorem Node.Fresh.sees {md : Mode} {n : Node} (h : n.Fresh) (plan : Plan) :
    n.Sees md plan (fun _ => none) := fun q c hc => .inl ⟨h q c hc, rfl⟩

/-! ## Readers that accept a layout -/

/-- The reader gets `v` from bits of the layout, which does not touch columns. -/
def Takes {α : Type} (read : Reader → Res (α × Reader)) (v : α) (l : Layout) : Prop :=
  ∀ st pos bits st', l st pos bits st' → st' = st ∧
    ∀ after, read ⟨pos, bits ++ after⟩ = .ok (v, ⟨pos + bits.length, after⟩)

/-- The reader skips bits of the layout. -/
def Skips (read : Reader → Res Reader) (l : Layout) : Prop :=
  ∀ st pos bits st', l st pos bits st' → st' = st ∧
    ∀ after, read ⟨pos, bits ++ after⟩ = .ok ⟨pos + bits.length, after⟩

/-- What is known of the context tree and of the numbers to come, in a packed array. -/
def ReadBefore (md : Mode) (pack : Option Plan) (t n : Node) (st : Columns)
    (nums : List Nat → List Entry) : Prop := match pack with
  | none => True
  | some plan => n.Like t ∧ n.Sees md plan st ∧ Storable plan st nums

/-- What is known afterwards. -/
def ReadAfter (md : Mode) (pack : Option Plan) (t n : Node) (st st' : Columns)
    (nums : List Nat → List Entry) : Prop := match pack with
  | none => st' = st
  | some plan => n.Like t ∧ n.Sees md plan st' ∧ st' = advance st nums

/-- The reader gets `v` from bits of the layout. -/
def Accepts {α : Type} (md : Mode) (pack : Option Plan) (t : Node)
    (read : Node → Reader → Res ((α × Node) × Reader)) (v : α) (l : Layout)
    (nums : List Nat → List Entry) : Prop :=
  ∀ n st pos bits st', l st pos bits st' → ReadBefore md pack t n st nums →
    ∃ n', ReadAfter md pack t n' st st' nums ∧
      ∀ after, read n ⟨pos, bits ++ after⟩ = .ok ((v, n'), ⟨pos + bits.length, after⟩)

theorem Takes.of_rt {α : Type} {write : Writer → Res Writer} {read : Reader → Res (α × Reader)}
    {v : α} {p : List Bool → Prop} (h : RoundTrips write read v) (hw : WritesAs write p)
    (hp : ∀ a b, p a → p b → a = b) : Takes read v (Layout.some p) := by
  intro st pos bits st' ⟨h1, h2⟩
  refine ⟨h2, ?_⟩
  obtain ⟨b, e, hr⟩ := h (List.replicate pos false)
  obtain ⟨b', e', hb⟩ := hw _ _ e
  have : b = b' := by simpa using e'
  subst this
  have := hp _ _ h1 hb
  subst this
  simpa using hr

theorem Skips.align {a : Nat} (ha : a ≠ 0) : Skips (fun r => Zs.alignReader r a) (Layout.align a) := by
  intro st pos bits st' h
  obtain ⟨h1, h2⟩ := least_pad ha pos
  obtain ⟨e1, e2⟩ := Layout.align_determined _ _ _ _ _ _ h
    (show Layout.align a st pos (List.replicate ((a - pos % a) % a) false) st from
      ⟨rfl, _, rfl, h1, h2⟩)
  refine ⟨e2, fun after => ?_⟩
  rw [e1]
  simp [Zs.alignReader, ha, Reader.position, Reader.skip, Reader.advance]

theorem Skips.empty : Skips (fun r => pure r) Layout.empty := by
  intro st pos bits st' ⟨h1, h2⟩
  have h1 : bits = [] := h1
  subst h1
  exact ⟨h2, fun after => by simp⟩

theorem Skips.bind {a b : Reader → Res Reader} {l m : Layout} (ha : Skips a l) (hb : Skips b m) :
    Skips (fun r => a r >>= b) (Layout.seq l m) := by
  intro st pos bits st' ⟨x, y, s, e, h1, h2⟩
  subst e
  obtain ⟨rfl, ha⟩ := ha _ _ _ _ h1
  obtain ⟨rfl, hb⟩ := hb _ _ _ _ h2
  refine ⟨rfl, fun after => ?_⟩
  simp only [List.append_assoc, ha, Res.ok_bind, hb, List.length_append, Nat.add_assoc]

theorem Accepts.skip {α : Type} {md : Mode} {pack : Option Plan} {t : Node} {a : Reader → Res Reader}
    {b : Node → Reader → Res ((α × Node) × Reader)} {v : α} {l m : Layout}
    {nums : List Nat → List Entry} (ha : Skips a l) (hb : Accepts md pack t b v m nums) :
    Accepts md pack t (fun n r => a r >>= fun r => b n r) v (Layout.seq l m) nums := by
  intro n st pos bits st' ⟨x, y, s, e, h1, h2⟩ hB
  subst e
  obtain ⟨rfl, ha⟩ := ha _ _ _ _ h1
  obtain ⟨n', hA, hb⟩ := hb _ _ _ _ _ h2 hB
  refine ⟨n', hA, fun after => ?_⟩
  simp only [List.append_assoc, ha, Res.ok_bind, hb, List.length_append, Nat.add_assoc]

/-- The context tree is left alone. -/
theorem Accepts.keep {α : Type} {md : Mode} {pack : Option Plan} {t : Node}
    {a : Reader → Res (α × Reader)} {v : α} {l : Layout} {nums : List Nat → List Entry}
    (ha : Takes a v l) (hn : pack.isSome → ∀ q, nums q = []) :
    Accepts md pack t (fun n r => a r >>= fun p => pure ((p.1, n), p.2)) v l nums := by
  intro n st pos bits st' h hB
  obtain ⟨rfl, ha⟩ := ha _ _ _ _ h
  refine ⟨n, ?_, fun after => by simp only [ha, Res.ok_bind, Res.pure_eq]⟩
  cases pack with
  | none => rfl
  | some plan =>
    have : nums = fun _ => [] := funext (hn rfl)
    subst this
    exact ⟨hB.1, hB.2.1, (advance_nil _).symm⟩

theorem Accepts.takes {α : Type} {md : Mode} {t : Node}
    {a : Node → Reader → Res ((α × Node) × Reader)} {v : α} {l : Layout}
    {nums : List Nat → List Entry} (h : Accepts md none t a v l nums) (n : Node) :
    Takes (fun r => a n r >>= fun p => pure (p.1.1, p.2)) v l := by
  intro st pos bits st' hl
  obtain ⟨n', hA, hr⟩ := h n _ _ _ _ hl trivial
  refine ⟨hA, fun after => ?_⟩
  simp only [hr, Res.ok_bind, Res.pure_eq]

/-- One after the other. -/
theorem Accepts.bind {α β : Type} {md : Mode} {pack : Option Plan} {t : Node}
    {a : Node → Reader → Res ((α × Node) × Reader)}
    {b : α → Node → Reader → Res ((β × Node) × Reader)} {v : α} {w : β} {l m : Layout}
    {nums nums' : List Nat → List Entry} (ha : Accepts md pack t a v l nums)
    (hb : Accepts md pack t (b v) w m nums') :
    Accepts md pack t (fun n r => a n r >>= fun p => b p.1.1 p.1.2 p.2) w (Layout.seq l m)
      (fun q => nums q ++ nums' q) := by
  intro n st pos bits st' ⟨x, y, s, e, h1, h2⟩ hB
  subst e
  obtain ⟨n1, hA, ha⟩ := ha n _ _ _ _ h1 (by
    cases pack with
    | none => trivial
    | some plan => exact ⟨hB.1, hB.2.1, hB.2.2.left⟩)
  obtain ⟨n2, hA2, hb⟩ := hb n1 _ _ _ _ h2 (by
    cases pack with
    | none => trivial
    | some plan =>
      obtain ⟨k1, k2, k3⟩ := hA
      subst k3
      exact ⟨k1, k2, hB.2.2.right⟩)
  refine ⟨n2, ?_, fun after => ?_⟩
  · cases pack with
    | none => exact Eq.trans hA2 hA
    | some plan =>
      obtain ⟨h1, h2, h3⟩ := hA
      obtain ⟨h4, h5, h6⟩ := hA2
      refine ⟨h4, h5, ?_⟩
      rw [h6, h3, advance_append]
  · simp only [List.append_assoc, ha, Res.ok_bind, hb, List.length_append, Nat.add_assoc]

theorem Accepts.map {α β : Type} {md : Mode} {pack : Option Plan} {t : Node}
    {a : Node → Reader → Res ((α × Node) × Reader)} (g : α → β) {v : α} {l : Layout}
    {nums : List Nat → List Entry} (ha : Accepts md pack t a v l nums) :
    Accepts md pack t (fun n r => a n r >>= fun p => pure ((g p.1.1, p.1.2), p.2)) (g v) l nums := by
  intro n st pos bits st' h hB
  obtain ⟨n', hA, ha⟩ := ha n _ _ _ _ h hB
  exact ⟨n', hA, fun after => by simp only [ha, Res.ok_bind, Res.pure_eq]⟩

/-- In a child of the tree. -/
theorem Accepts.inField {α : Type} {md : Mode} {plan : Plan} {t d : Node} {i : Nat}
    {read : Node → Reader → Res ((α × Node) × Reader)} {v : α} {l : Layout}
    {nums : List Nat → List Entry} (hi : t.children[i]? = some d)
    (h : Accepts md (some (plan.field i)) d read v l nums) :
    Accepts md (some plan) t (fun n r => (n.onChild i fun c => do
        let ((x, c), r) ← read c r
        pure ((x, r), c)) >>= fun p => pure ((p.1.1, p.2), p.1.2)) v (Layout.inField i l)
      (below i nums) := by
  intro n st pos bits st' ⟨hl, hst⟩ ⟨hlike, hsees, hfit⟩
  obtain ⟨cs, own⟩ := n
  obtain ⟨c, hc, hcl⟩ := hlike.child hi
  obtain ⟨c', ⟨h1, h2, h3⟩, hr⟩ := h c _ _ _ _ hl ⟨hcl, hsees.child hc, hfit.field⟩
  have hst' : st' = withField i st (fun q => st' (i :: q)) := by
    funext q
    by_cases hq : ∃ r, q = i :: r
    · obtain ⟨r, rfl⟩ := hq
      rw [withField_self]
    · have hq' : ∀ r, q ≠ i :: r := fun r e => hq ⟨r, e⟩
      rw [withField_other hq', hst q hq']
  refine ⟨.mk (cs.set i c') own, ⟨hlike.set hi h1, ?_, ?_⟩, fun after => ?_⟩
  · rw [hst']
    exact hsees.set ⟨_, hc⟩ h2
  · rw [advance_below, hst', h3]
  · have hc' : cs[i]? = some c := hc
    simp only [Node.onChild, hc', hr, Res.ok_bind, Res.pure_eq]

/-! ## Numbers in packed arrays -/

theorem readSigned_binary {m : Nat} {d : Int} (hm : m + 1 ≤ 64) (hd : d.natAbs < 2 ^ m) (pos : Nat)
    (after : List Bool) : readSignedBits ⟨pos, binary (m + 1) d ++ after⟩ (m + 1) =
      .ok (d, ⟨pos + (m + 1), after⟩) := by
  rw [← natBits_asU64 hm]
  have hp : ((2 ^ m : Nat) : Int) = 2 ^ m := by simp
  unfold readSignedBits
  rw [if_neg (by omega), Reader.readSigned_append (by omega) (by omega) (by omega)]
  · rw [Nat.add_sub_cancel]; omega
  · rw [Nat.add_sub_cancel]; omega

theorem readDescriptor_spec (c : DeltaContext) {plan : Option Nat} (h : ∀ m, plan = some m → m ≤ 62)
    : ∃ c', (∀ pos after, c.readDescriptor ⟨pos, descriptor plan ++ after⟩ =
      .ok (c', ⟨pos + (descriptor plan).length, after⟩)) ∧ plan = c'.decision ∧
      c'.processingStarted = c.processingStarted := by
  cases plan with
  | none =>
    refine ⟨{ c with isPacked := false }, fun pos after => ?_, rfl, rfl⟩
    simp [DeltaContext.readDescriptor, descriptor, Reader.readBool]
  | some m =>
    have hm := h m rfl
    refine ⟨{ c with isPacked := true, maxBitNumber := m }, fun pos after => ?_, rfl, rfl⟩
    have hrd : ∀ pos after, readUnsignedBits ⟨pos, binary 6 m ++ after⟩ 6 =
        .ok (m, ⟨pos + 6, after⟩) := by
      intro pos after
      rw [← natBits_binary]
      unfold readUnsignedBits
      rw [if_neg (by decide), Reader.readUnsigned_append (by decide) (by omega)]
    simp only [DeltaContext.readDescriptor, descriptor, Reader.readBool, List.cons_append,
      Res.unwrap_ok, Res.ok_bind, if_true, DeltaContext.maxBitNumberBits, hrd, Res.pure_eq,
      List.length_cons, binary_length]
    rw [Nat.mod_eq_of_lt (by omega), Nat.add_assoc, Nat.add_comm 1 6]

theorem addI64_spec {md : Mode} {p x : Int} (h : md = .release ∨ ((-2 ^ 63 ≤ p ∧ p < 2 ^ 63) ∧
    (-2 ^ 63 ≤ x ∧ x < 2 ^ 63))) :
    ∃ s, addI64 md (asI64 (asU64 p)) (x - p) = .ok s ∧ asU64 s = asU64 x := by
  have hlt : asU64 p < 2 ^ 64 := by unfold asU64; omega
  have hmod : ∀ a b : Int, a % 2 ^ 64 = b % 2 ^ 64 → asU64 a = asU64 b := by
    intro a b h; unfold asU64; rw [h]
  have h1 := asI64_mod (asU64 p)
  have h2 : ((asU64 p : Nat) : Int) % 2 ^ 64 = p % 2 ^ 64 := by unfold asU64; omega
  unfold addI64
  split
  · exact ⟨_, rfl, hmod _ _ (by omega)⟩
  · rename_i hn
    cases md with
    | release =>
      obtain ⟨k, e, _, _⟩ := wrapSigned64 (asI64 (asU64 p) + (x - p))
      exact ⟨_, rfl, by rw [e, asU64_add_mul]; exact hmod _ _ (by omega)⟩
    | debug =>
      rcases h with h | ⟨h3, h4⟩
      · cases h
      · obtain ⟨r1, r2⟩ := asI64_range hlt
        exact absurd (by omega) hn

theorem delta_read {md : Mode} {e : Elem Val} {dflt v : Val} {x : Int} {plain : List Bool → Prop}
    (hr : Takes (fun r => e.read r dflt) v (Layout.some plain)) (hu : e.toU64 v = .ok (asU64 x))
    (hf : e.fromU64 (asU64 x) = .ok v) (hx : md = .release ∨ (-2 ^ 63 ≤ x ∧ x < 2 ^ 63))
    {c : DeltaContext} {plan : Option Nat} {st st' : Columns} (hc : ReadColumn md c plan (st []))
    (hp : ∀ m, plan = some m → m ≤ 62 ∧ ColumnFits m ((st []).toList ++ [x])) {pos : Nat}
    {bits : List Bool} (h : packedNumber plan plain x st pos bits st') :
    ∃ c', ReadColumn md c' plan (some x) ∧ ∀ after, c.read md e ⟨pos, bits ++ after⟩ dflt =
      .ok ((v, c'), ⟨pos + bits.length, after⟩) := by
  obtain ⟨_, h⟩ := h
  have hplain : ∀ pos bits after, plain bits → e.read ⟨pos, bits ++ after⟩ dflt =
      .ok (v, ⟨pos + bits.length, after⟩) :=
    fun pos bits after hb => (hr st pos bits st ⟨hb, rfl⟩).2 after
  rcases hc with ⟨hs, hl⟩ | ⟨hs, hd, p, hl, hpu, hpr⟩
  · rw [hl] at h
    obtain ⟨rest, hrest, rfl⟩ := h
    obtain ⟨c', hsame, hdec, hst⟩ := readDescriptor_spec { c with processingStarted := true }
      (fun m hm => (hp m hm).1)
    refine ⟨{ c' with previousElement := asU64 x }, .inr ⟨hst, hdec, x, rfl, rfl, hx⟩,
      fun after => ?_⟩
    unfold DeltaContext.read
    rw [hs]
    simp only [Bool.not_false, if_true, List.append_assoc, hsame, Res.ok_bind,
      DeltaContext.readUnpacked, hplain _ _ _ hrest, hu, Res.pure_eq, List.length_append,
      Nat.add_assoc]
  · rw [hl] at h hp
    cases hk : c.isPacked with
    | false =>
      have : plan = none := by rw [hd, DeltaContext.decision, hk]; rfl
      subst this
      refine ⟨{ c with previousElement := asU64 x }, .inr ⟨hs, hd, x, rfl, rfl, hx⟩, fun after => ?_⟩
      unfold DeltaContext.read
      simp only [hs, hk, Bool.not_true, Bool.false_eq_true, if_false, Bool.not_false, if_true,
        DeltaContext.readUnpacked, hplain _ _ _ h, Res.ok_bind, hu, Res.pure_eq]
    | true =>
      have hpm : plan = some c.maxBitNumber := by rw [hd, DeltaContext.decision, hk]; rfl
      obtain ⟨h62, hfit⟩ := hp _ hpm
      have hdiff : (x - p).natAbs < 2 ^ c.maxBitNumber := hfit 0 p x rfl rfl
      cases hm : c.maxBitNumber with
      | zero =>
        rw [hpm, hm] at h
        have h : bits = [] := h
        subst h
        rw [hm] at hdiff
        have hxp : x = p := by simp at hdiff; omega
        subst hxp
        refine ⟨c, .inr ⟨hs, hd, x, rfl, hpu, hx⟩, fun after => ?_⟩
        unfold DeltaContext.read
        rw [hs, hk, hm]
        simp only [Bool.not_true, Bool.false_eq_true, if_false, Nat.lt_irrefl, gt_iff_lt,
          Res.pure_eq, Res.ok_bind, hpu, hf, List.nil_append, List.length_nil, Nat.add_zero]
      | succ m =>
        rw [hpm, hm] at h
        have h : bits = binary (m + 1 + 1) (x - p) := h
        subst h
        rw [hm] at hdiff h62
        obtain ⟨s, hs1, hs2⟩ := addI64_spec (md := md) (p := p) (x := x) (by
          rcases hx with hx | hx
          · exact .inl hx
          · rcases hpr with hpr | hpr
            · exact .inl hpr
            · exact .inr ⟨hpr, hx⟩)
        refine ⟨{ c with previousElement := asU64 x }, .inr ⟨hs, hd, x, rfl, rfl, hx⟩,
          fun after => ?_⟩
        unfold DeltaContext.read
        simp only [hs, hk, hm, Bool.not_true, Bool.false_eq_true, if_false,
          gt_iff_lt, Nat.succ_pos, if_true, readSigned_binary (show m + 1 + 1 ≤ 64 by omega) hdiff,
          Res.ok_bind, hpu, hs1, Res.pure_eq, hs2, hf, binary_length]

theorem packable_reads {md : Mode} {e : Elem Val} {dflt v : Val} {s : Scalar} {x : Int}
    {plain : List Bool → Prop} (hr : Takes (fun r => e.read r dflt) v (Layout.some plain))
    (hu : e.toU64 v = .ok (asU64 x)) (hf : e.fromU64 (asU64 x) = .ok v)
    (hx : md = .release ∨ (-2 ^ 63 ≤ x ∧ x < 2 ^ 63)) (plan : Plan) :
    Accepts md (some plan) (.mk [] (some DeltaContext.new))
      (fun n r => (e.packable md).readPacked n r dflt) v (packedNumber (plan []) plain x)
      (fun q => if q = [] then [(s, x)] else []) := by
  intro n st pos bits st' h ⟨hlike, hsees, hfit⟩
  obtain ⟨cs, own⟩ := n
  obtain ⟨k, hk, hown⟩ := hlike [] _ rfl
  cases own with
  | none =>
    simp only [Node.sub, Option.some.injEq] at hk
    subst hk
    cases hown rfl
  | some c =>
    obtain ⟨c', hcol, hrd⟩ := delta_read hr hu hf hx (hsees [] c rfl)
      (fun m hm => by simpa using hfit [] m hm) h
    refine ⟨.mk cs (some c'), ⟨?_, ?_, ?_⟩, fun after => ?_⟩
    · intro q m hm
      cases q with
      | nil => exact ⟨_, rfl, fun _ => rfl⟩
      | cons i r => simp [Node.sub, Node.children] at hm
    · rw [h.1]
      intro q d hd
      cases q with
      | nil =>
        have : d = c' := by
          simp only [Node.at, Node.context] at hd
          exact (Option.some.inj hd).symm
        subst this
        exact hcol
      | cons i r =>
        have := hsees (i :: r) d hd
        simpa using this
    · rw [h.1]
      funext q
      by_cases hq : q = []
      · subst hq; simp [advance]
      · simp [advance, hq]
    · simp only [Elem.packable, hrd, Res.ok_bind, Res.pure_eq]

end Zs
