import Verif.WireLemmas
import Verif.SchemaSize
import Verif.SchemaCodec

/-!
# Lemmas: what packing contexts count

Initialising the context tree of a packed array with its elements counts, in every column, the numbers
that the specification counts (`Node.Tallies`), so the plan it leads to is the one of `exactPacking`.
-/

namespace Zs

open Spec

/-- The context at the end of a path. -/
def Node.at (n : Node) : List Nat → Option DeltaContext
  | [] => n.context
  | i :: q => match n.children[i]? with
    | none => none
    | some c => c.at q

/-- How a context stores the numbers after the first. -/
def DeltaContext.decision (c : DeltaContext) : Option Nat :=
  if c.isPacked then some c.maxBitNumber else none

/-- No context has been used for writing. -/
def Node.Fresh (n : Node) : Prop := ∀ q c, n.at q = some c → c.processingStarted = false

/-- The plan of an initialised tree. -/
def Node.plan (n : Node) : Plan := fun q => match n.at q with
  | none => none
  | some c => (DeltaContext.finishInit { c with processingStarted := true }).decision

/-! ## One column -/

/-- Numbers with their sizes, as elements of a trait. -/
def pairElem : Elem (Nat × Nat) where
  isBitsizeofConstant := false
  bitsizeOf _ p := .ok p.2
  read r p := .ok (p, r)
  write w _ := .ok w
  toU64 p := .ok p.1
  fromU64 u := .ok (u, 0)

theorem DeltaContext.init_pair {α : Type} {c : DeltaContext} {e : Elem α} {x : α} {u s : Nat}
    (hu : e.toU64 x = .ok u) (hs : e.bitsizeOf 0 x = .ok s) :
    c.init e x = c.init pairElem (u, s) := by
  unfold DeltaContext.init
  simp only [hu, hs, pairElem]

theorem DeltaContext.initAll_snoc {α : Type} {e : Elem α} {xs : List α} {x : α} :
    ∀ {c c' c'' : DeltaContext}, c.initAll e xs = .ok c' → c'.init e x = .ok c'' →
      c.initAll e (xs ++ [x]) = .ok c'' := by
  induction xs with
  | nil => intro c c' c'' h h'; cases h; simp only [List.nil_append, DeltaContext.initAll, h', Res.ok_bind]
  | cons y ys ih =>
    intro c c' c'' h h'
    simp only [DeltaContext.initAll, List.cons_append] at h ⊢
    obtain ⟨d, h1, h2⟩ := Res.bind_eq_ok.1 h
    rw [h1, Res.ok_bind]
    exact ih h2 h'

/-- The context has counted these entries. -/
def Tally (c : DeltaContext) (col : List Entry) : Prop :=
  ∃ ps : List (Nat × Nat), DeltaContext.new.initAll pairElem ps = .ok c ∧
    ps.map (fun p => (p.1 : Int)) = col.map (fun e => e.2 % 2 ^ 64) ∧
    Sizes col (ps.map (·.2)) ∧ ∀ p ∈ ps, p.1 < 2 ^ 64

theorem Tally.new : Tally DeltaContext.new [] := ⟨[], rfl, rfl, rfl, by simp⟩

theorem Sizes.snoc {bits : List Bool} {e : Entry} (h : e.1.NumberWire ⟨[], []⟩ e.2 bits) :
    ∀ {col : List Entry} {ss : List Nat}, Sizes col ss → Sizes (col ++ [e]) (ss ++ [bits.length])
  | [], ss, hs => by
    simp only [Sizes] at hs
    subst hs
    exact ⟨bits, [], h, rfl, rfl⟩
  | d :: col, ss, hs => by
    obtain ⟨b, rest, h1, h2, rfl⟩ := hs
    exact ⟨b, rest ++ [bits.length], h1, Sizes.snoc h h2, rfl⟩

theorem Tally.init {α : Type} {c c' : DeltaContext} {col : List Entry} (h : Tally c col) {e : Elem α}
    {x : α} {u n : Nat} {entry : Entry} {bits : List Bool} (hu : e.toU64 x = .ok u) (h64 : u < 2 ^ 64)
    (hx : (u : Int) = entry.2 % 2 ^ 64) (hs : e.bitsizeOf 0 x = .ok n)
    (hb : entry.1.NumberWire ⟨[], []⟩ entry.2 bits) (hn : bits.length = n)
    (hc : c.init e x = .ok c') : Tally c' (col ++ [entry]) := by
  obtain ⟨ps, h1, h2, h3, h4⟩ := h
  rw [DeltaContext.init_pair hu hs] at hc
  refine ⟨ps ++ [(u, n)], DeltaContext.initAll_snoc h1 hc, ?_, ?_, ?_⟩
  · simp only [List.map_append, h2, List.map_cons, List.map_nil, hx]
  · rw [List.map_append]
    subst hn
    exact Sizes.snoc hb h3
  · intro p hp
    rcases List.mem_append.1 hp with hp | hp
    · exact h4 p hp
    · rw [List.mem_singleton.1 hp]; exact h64

theorem inits_pair : ∀ {ps : List (Nat × Nat)}, (∀ p ∈ ps, p.1 < 2 ^ 64) →
    Inits pairElem ps (ps.map (·.1)) (ps.map (·.2))
  | [], _ => .nil
  | p :: ps, h => .cons rfl rfl (h p (List.mem_cons_self ..))
      (inits_pair fun q hq => h q (List.mem_cons_of_mem _ hq))

theorem Tally.fresh {c : DeltaContext} {col : List Entry} (h : Tally c col) :
    c.processingStarted = false := by
  obtain ⟨ps, h1, _, _, h4⟩ := h
  by_cases hp : ps = []
  · subst hp; cases h1; rfl
  · obtain ⟨c', h5, h6⟩ := DeltaContext.initAll_new (inits_pair h4) hp
    rw [h1] at h5
    cases h5
    exact h6.processing

/-- The distances of neighbours. -/
theorem fits_deltas (m : Nat) (us : List Nat) :
    ColumnFits m (us.map (fun u : Nat => (u : Int))) ↔ ∀ d ∈ deltas us, d < 2 ^ m := by
  induction us with
  | nil => simp [ColumnFits, deltas]
  | cons a us ih =>
    cases us with
    | nil =>
      simp only [deltas, List.not_mem_nil, false_imp_iff, implies_true, iff_true]
      intro i a b _ h
      simp at h
    | cons b us =>
      simp only [deltas, List.mem_cons, forall_eq_or_imp]
      rw [← ih]
      have hab : ((b : Int) - a).natAbs = absDiff a b := by unfold absDiff; split <;> omega
      constructor
      · intro h
        refine ⟨?_, fun i x y hx hy => h (i + 1) x y (by simpa using hx) (by simpa using hy)⟩
        have := h 0 a b (by simp) (by simp)
        rwa [hab] at this
      · rintro ⟨h1, h2⟩ i x y hx hy
        cases i with
        | zero =>
          simp at hx hy
          subst hx; subst hy
          rw [hab]; exact h1
        | succ i => exact h2 i x y (by simpa using hx) (by simpa using hy)

/-- What the context decides is the best. -/
theorem Tally.exact {c : DeltaContext} {col : List Entry} (h : Tally c col) (stored : List Entry) :
    exactPacking stored col
      (DeltaContext.finishInit { c with processingStarted := true }).decision := by
  obtain ⟨ps, h1, h2, h3, h4⟩ := h
  refine ⟨_, h3, ?_⟩
  rw [← h2]
  by_cases hp : ps = []
  · subst hp
    cases h1
    intro m
    have : (DeltaContext.finishInit { DeltaContext.new with processingStarted := true }).decision
        = none := rfl
    rw [this]
    simp [packedBits, plainBits]
  · obtain ⟨c', h5, hi⟩ := DeltaContext.initAll_new (inits_pair h4) hp
    rw [h1] at h5
    cases h5
    have hmap : ps.map (fun p => (p.1 : Int)) = (ps.map (·.1)).map (fun u : Nat => (u : Int)) := by
      rw [List.map_map]; rfl
    rw [hmap]
    obtain ⟨p, ps', rfl⟩ := List.exists_cons_of_ne_nil hp
    generalize hus : List.map (fun x => x.fst) (p :: ps') = us at hi ⊢
    generalize hss : List.map (fun x => x.snd) (p :: ps') = ss at hi ⊢
    have hlen : us.length = ss.length := by rw [← hus, ← hss]; simp
    have hpos : 1 ≤ us.length := by rw [← hus]; simp
    generalize hd : DeltaContext.finishInit { c with processingStarted := true } = d
    have hdm : d.maxBitNumber = c.maxBitNumber := by
      rw [← hd]
      rcases DeltaContext.finishInit_spec { c with processingStarted := true } with h | ⟨_, h⟩ <;>
        rw [h]
    have hdp : d.isPacked = true ↔ c.isPacked = true ∧
        packedBits c.maxBitNumber ss < plainBits ss := by
      rw [← hd, finishInit_isPacked]
      simp only [hi.num, hi.unpacked, hi.first, packedBits, plainBits, deltaBits, hlen]
      by_cases h0 : c.maxBitNumber = 0
      · simp [h0]
      · have : c.maxBitNumber > 0 := by omega
        simp [this, h0]
    have hfits : c.maxBitNumber ≤ 62 → ColumnFits c.maxBitNumber (us.map (fun u : Nat => (u : Int))) :=
      fun h => (fits_deltas _ _).2 (hi.fits h)
    have hleast : ∀ k, ColumnFits k (us.map (fun u : Nat => (u : Int))) → c.maxBitNumber ≤ k := by
      intro k hk
      rcases hi.attained with h0 | ⟨x, hx, hl⟩
      · omega
      · exact hl.2 k ((fits_deltas k us).1 hk x hx)
    intro m
    unfold DeltaContext.decision
    constructor
    · intro h
      split at h
      · rename_i hk
        cases h
        rw [hdp, hi.packed] at hk
        simp only [Bool.and_eq_true, decide_eq_true_eq] at hk
        rw [hdm]
        exact ⟨⟨hfits hk.1.2, hleast⟩, hk.1.2, hk.2⟩
      · cases h
    · rintro ⟨⟨hf, hl⟩, h62, hlt⟩
      have hcm := hleast m hf
      have hmc := hl _ (hfits (by omega))
      have e : m = c.maxBitNumber := by omega
      subst e
      have h2l : 2 ≤ us.length := by
        by_cases h2 : 2 ≤ us.length
        · exact h2
        · exfalso
          have h1 : ss.length = 1 := by omega
          obtain ⟨s, rfl⟩ := List.length_eq_one_iff.1 h1
          simp [packedBits, plainBits] at hlt
      rw [if_pos (hdp.2 ⟨by rw [hi.packed]; simp [h2l, h62], hlt⟩), hdm]

theorem exactPacking_nil (stored : List Entry) : exactPacking stored [] none := by
  refine ⟨[], rfl, fun m => ?_⟩
  simp [packedBits, plainBits]

/-! ## Trees -/

/-- The contexts of the tree have counted these columns. -/
def Node.Tallies (n : Node) (cols : List Nat → List Entry) : Prop := ∀ q, match n.at q with
  | some c => Tally c (cols q)
  | none => cols q = []

theorem Node.Tallies.fresh {n : Node} {cols : List Nat → List Entry} (h : n.Tallies cols) :
    n.Fresh := by
  intro q c hc
  have := h q
  rw [hc] at this
  exact this.fresh

theorem Node.Tallies.exact {n : Node} {cols : List Nat → List Entry} (h : n.Tallies cols)
    (stored : List Entry) (q : List Nat) : exactPacking stored (cols q) (n.plan q) := by
  have := h q
  unfold Node.plan
  cases hc : n.at q with
  | some c => rw [hc] at this; exact this.exact stored
  | none =>
    rw [hc] at this
    simp only at this
    rw [this]
    exact exactPacking_nil stored

theorem Node.Tallies.congr {n : Node} {a b : List Nat → List Entry} (h : n.Tallies a)
    (e : ∀ q, a q = b q) : n.Tallies b := by
  have : a = b := funext e
  rwa [← this]

/-- The columns when a field adds some. -/
def addField (i : Nat) (cols sub : List Nat → List Entry) : List Nat → List Entry := fun q =>
  cols q ++ match q with
    | [] => []
    | j :: r => if j = i then sub r else []

theorem Node.Tallies.child {n : Node} {cols : List Nat → List Entry} (h : n.Tallies cols) {i : Nat}
    {c : Node} (hc : n.children[i]? = some c) : c.Tallies (fun q => cols (i :: q)) := by
  intro q
  have := h (i :: q)
  simp only [Node.at, hc] at this
  exact this

theorem Node.Tallies.onChild {n n' : Node} {cols sub : List Nat → List Entry} (h : n.Tallies cols)
    {i : Nat} {f : Node → Res (Unit × Node)}
    (hf : ∀ c c' cs, c.Tallies cs → f c = .ok ((), c') → c'.Tallies (fun q => cs q ++ sub q))
    (hn : n.onChild i f = .ok ((), n')) : n'.Tallies (addField i cols sub) := by
  obtain ⟨cs, own⟩ := n
  simp only [Node.onChild] at hn
  cases hi : cs[i]? with
  | none => rw [hi] at hn; cases hn
  | some child =>
    rw [hi] at hn
    obtain ⟨⟨u, c1⟩, h1, hn⟩ := Res.bind_eq_ok.1 hn
    cases hn
    have hlt : i < cs.length := (List.getElem?_eq_some_iff.1 hi).1
    have hc := hf _ _ _ (Node.Tallies.child (n := .mk cs own) h hi) h1
    intro q
    cases q with
    | nil =>
      have := h []
      simp only [Node.at, Node.context, addField, List.append_nil] at this ⊢
      exact this
    | cons j r =>
      by_cases hj : j = i
      · subst hj
        have := hc r
        simp only [Node.at, Node.children, addField, if_true, List.getElem?_set_self hlt] at this ⊢
        exact this
      · have := h (j :: r)
        simp only [Node.at, Node.children, addField, hj, if_false, List.append_nil,
          List.getElem?_set_ne (Ne.symm hj)] at this ⊢
        exact this

theorem Node.tallies_mk {cs : List Node} {own : Option DeltaContext}
    (h1 : ∀ c, own = some c → c = DeltaContext.new) (h2 : ∀ n ∈ cs, n.Tallies (fun _ => [])) :
    (Node.mk cs own).Tallies (fun _ => []) := by
  intro q
  cases q with
  | nil =>
    cases own with
    | none => exact (rfl : ([] : List Entry) = [])
    | some c => rw [h1 c rfl]; exact Tally.new
  | cons i r =>
    cases hi : cs[i]? with
    | none =>
      have e : (Node.mk cs own).at (i :: r) = none := by simp [Node.at, Node.children, hi]
      rw [e]
    | some n =>
      have e : (Node.mk cs own).at (i :: r) = n.at r := by simp [Node.at, Node.children, hi]
      rw [e]
      exact h2 n (List.mem_of_getElem? hi) r

theorem Node.tallies_new : Node.new.Tallies (fun _ => []) :=
  Node.tallies_mk (fun c h => by cases h) (fun n h => by cases h)

theorem Node.tallies_delta : (Node.mk [] (some DeltaContext.new)).Tallies (fun _ => []) :=
  Node.tallies_mk (fun c h => by cases h; rfl) (fun n h => by cases h)

/-! ## Builtin types -/

/-- What `init` needs to know of a number. -/
theorem Scalar.counted {cfg : Cfg} {s : Scalar} {env : Env} {v : Val} (hp : s.isPackable = true)
    (hw : s.WidthOk) (hv : s.InRange cfg env v ∨ v = s.dflt) :
    ∃ x u n bits, v.number = some x ∧ (s.elem cfg env).toU64 v = .ok u ∧ u < 2 ^ 64 ∧
      (u : Int) = x % 2 ^ 64 ∧ (s.elem cfg env).bitsizeOf 0 v = .ok n ∧
      (s.fixed env).NumberWire ⟨[], []⟩ x bits ∧ bits.length = n := by
  have valid : s.InRange cfg env v → ∃ x u n bits, v.number = some x ∧
      (s.elem cfg env).toU64 v = .ok u ∧ u < 2 ^ 64 ∧
      (u : Int) = x % 2 ^ 64 ∧ (s.elem cfg env).bitsizeOf 0 v = .ok n ∧
      (s.fixed env).NumberWire ⟨[], []⟩ x bits ∧ bits.length = n := by
    intro hv
    obtain ⟨x, u, hx, hu, hm⟩ := Scalar.toU64_number hp hv
    have hg := Scalar.good hp hw hv
    obtain ⟨u', h64, hu', _⟩ := hg.u64
    rw [hu] at hu'
    cases hu'
    obtain ⟨bits, hwr, _⟩ := hg.rt []
    obtain ⟨b, e, hpl⟩ := Scalar.elem_writesAs hw hv _ _ hwr
    simp only [List.nil_append] at e
    subst e
    have hcons : v.Consistent := by
      cases v <;> first | (simp [Val.number] at hx; done) | (simp [Val.Consistent]; done)
    have hes : s.ElemSized := by cases s <;> first | trivial | (cases hp; done)
    obtain ⟨n, h1, h2⟩ := Scalar.size_elem (cfg := cfg) (env := env) hes hcons _ _ hwr
    have h1 : (s.elem cfg env).bitsizeOf 0 v = .ok n := h1
    refine ⟨x, u, n, bits, hx, hu, h64, ?_, h1, ?_, by simpa using h2⟩
    · rw [← hm, Int.emod_eq_of_lt (by omega) (by omega)]
    · unfold Scalar.PlainWire at hpl
      rw [hx] at hpl
      cases s with
      | bitsDyn len =>
        cases v <;> first | exact absurd hv id | skip
        have : len env % 256 = len env := Nat.mod_eq_of_lt (by have := hv.1; omega)
        simpa [Scalar.fixed, Scalar.NumberWire, this] using hpl
      | intsDyn len =>
        cases v <;> first | exact absurd hv id | skip
        have : len env % 256 = len env := Nat.mod_eq_of_lt (by have := hv.2.1; omega)
        simpa [Scalar.fixed, Scalar.NumberWire, this] using hpl
      | _ => exact hpl
  rcases hv with hv | rfl
  · exact valid hv
  · cases s with
    | bitsDyn len =>
      exact ⟨0, 0, len env % 256, _, rfl, rfl, by decide, rfl, rfl, rfl, binary_length ..⟩
    | intsDyn len =>
      exact ⟨0, 0, len env % 256, _, rfl, rfl, by decide, rfl, rfl, rfl, binary_length ..⟩
    | varuint16 | varuint32 | varuint64 | varuint | varsize | varint16 | varint32 | varint64
    | varint => exact valid (by simp [Scalar.InRange, Scalar.dflt])
    | uint n | bits n =>
      exact ⟨0, 0, n, _, rfl, rfl, by decide, rfl, rfl, rfl, binary_length ..⟩
    | int n | ints n =>
      exact ⟨0, 0, n, _, rfl, rfl, by decide, rfl, rfl, rfl, binary_length ..⟩
    | _ => cases hp

theorem Scalar.init_tallies {cfg : Cfg} {s : Scalar} {env : Env} {v : Val}
    (hp : s.isPackable = true) (hw : s.WidthOk) (hv : s.InRange cfg env v ∨ v = s.dflt)
    {n n' : Node} {cols : List Nat → List Entry} (h : n.Tallies cols)
    (hn : (s.ops cfg).initContext env v n = .ok n') :
    ∃ x, v.number = some x ∧
      n'.Tallies (fun q => cols q ++ if q = [] then [(s.fixed env, x)] else []) := by
  obtain ⟨x, u, k, bits, hx, hu, h64, hm, hs, hb, hl⟩ := Scalar.counted (cfg := cfg) hp hw hv
  refine ⟨x, hx, ?_⟩
  obtain ⟨cs, own⟩ := n
  simp only [Scalar.ops] at hn
  cases own with
  | none => cases hn
  | some c =>
    simp only [Elem.packable, Node.onContext] at hn
    obtain ⟨⟨u', n1⟩, h1, hn⟩ := Res.bind_eq_ok.1 hn
    cases hn
    obtain ⟨⟨u'', c1⟩, h2, h1⟩ := Res.bind_eq_ok.1 h1
    cases h1
    obtain ⟨c2, h3, h2⟩ := Res.bind_eq_ok.1 h2
    cases h2
    intro q
    have := h q
    cases q with
    | nil =>
      simp only [Node.at, Node.context, if_true] at this ⊢
      exact this.init (entry := (s.fixed env, x)) hu h64 hm hs hb hl h3
    | cons i r =>
      simp only [Node.at, Node.children, reduceCtorEq, if_false, List.append_nil] at this ⊢
      exact this

end Zs
