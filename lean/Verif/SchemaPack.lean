import Verif.SchemaScalar

/-!
# Packing of values of one type

A type is packed by initialising a node with all values, then writing (and later reading) some of
them in the same order.  `PItem`, `Follows` and `Packs` describe this for values that are written in
different environments; the values of unselected fields of a choice are initialised, not written.
-/

namespace Zs

open Spec

/-- A value for which a packing node is initialised. -/
structure PItem where
  env : Env
  val : Val
  written : Bool

theorem Val.withParams_params (v : Val) : v.withParams v.params = v := by
  cases v <;> rfl

theorem Scalar.dflt_withParams (s : Scalar) (ps : List Val) : s.dflt.withParams ps = s.dflt := by
  cases s <;> rfl

namespace TypeOps

variable (t : TypeOps)

/-- Initialise a node with all items. -/
def initItems : Node → List PItem → Res Node
  | n, [] => .ok n
  | n, it :: its => t.initContext it.env it.val n >>= fun n => initItems n its

/-- The items can be written from node `w` and be read back from node `r`. -/
def Follows : List PItem → Node → Node → Prop
  | [], _, _ => True
  | it :: its, w, r => ∀ before : List Bool, ∃ bits w' r',
      t.writePacked it.env it.val w ⟨before⟩ = .ok (⟨before ++ bits⟩, w') ∧
      (∀ after, t.readPacked it.env (t.dflt.withParams it.val.params) r
          ⟨before.length, bits ++ after⟩ =
        .ok ((it.val, r'), ⟨before.length + bits.length, after⟩)) ∧
      Follows its w' r'

/-- The items can be packed: initialised, then those that are written can be read back. -/
def Packs (items : List PItem) : Prop :=
  ∃ n, t.initItems t.createContext items = .ok n ∧
    t.Follows (items.filter PItem.written) n t.createContext

/-- Valid values are read back. -/
def RT (valid : Env → Val → Prop) : Prop :=
  ∀ env v, valid env v → RoundTrips (fun w => t.write env v w)
    (fun r => t.read env (t.dflt.withParams v.params) r) v

/-- Valid values are read back as array elements. -/
def ElemRT (valid : Env → Val → Prop) : Prop :=
  ∀ env v, valid env v → RoundTrips (fun w => (t.arrayTrait env).write w v)
    (fun r => (t.arrayTrait env).read r (t.dflt.withParams v.params)) v

/-- Valid values can be packed, even when unwritten defaults are among them if `z` is set. -/
def PacksAll (valid : Env → Val → Prop) (z : Bool) : Prop :=
  ∀ items : List PItem, (∀ it ∈ items, if it.written then valid it.env it.val
    else z = true ∧ it.val = t.dflt) → t.Packs items

/-- The array trait of the type does the same as the type. -/
structure Coherent : Prop where
  create : ∀ env, (t.arrayTrait env).createContext = t.createContext
  init : ∀ env n v, (t.arrayTrait env).initContext n v = t.initContext env v n
  write : ∀ env n w v, (t.arrayTrait env).writePacked n w v = t.writePacked env v n w
  read : ∀ env n r v, (t.arrayTrait env).readPacked n r v = t.readPacked env v n r

end TypeOps

theorem Scalar.coherent (cfg : Cfg) (s : Scalar) : (s.ops cfg).Coherent :=
  ⟨fun _ => rfl, fun _ _ _ => rfl, fun _ _ _ _ => rfl, fun _ _ _ _ => rfl⟩

theorem Codec.coherent (c : Codec) : c.ops.Coherent :=
  ⟨fun _ => rfl, fun _ _ _ => rfl, fun _ _ _ _ => rfl, fun _ _ _ _ => rfl⟩

/-! ## Builtin types -/

theorem Scalar.ops_rt {cfg : Cfg} {s : Scalar} (hw : s.WidthOk) :
    (s.ops cfg).RT (s.InRange cfg) := fun _ _ hv => Scalar.roundTrips hw hv

theorem Scalar.ops_elemRT {cfg : Cfg} {s : Scalar} (hw : s.WidthOk) :
    (s.ops cfg).ElemRT (s.InRange cfg) := by
  intro env v hv
  have := Scalar.elem_roundTrips hw hv
  show RoundTrips (fun w => (s.elem cfg env).write w v)
    (fun r => (s.elem cfg env).read r (s.dflt.withParams v.params)) v
  rw [Scalar.dflt_withParams]
  exact this

/-- Elements of different traits as elements of one trait, as far as `init` is concerned. -/
def mixedElem : Elem (Elem Val × Val) where
  isBitsizeofConstant := false
  bitsizeOf p x := x.1.bitsizeOf p x.2
  read _ _ := .panic
  write _ _ := .panic
  toU64 x := x.1.toU64 x.2
  fromU64 _ := .panic

theorem DeltaContext.init_mixed (c : DeltaContext) (e : Elem Val) (v : Val) :
    c.init mixedElem (e, v) = c.init e v := rfl

theorem Scalar.initItems_eq (cfg : Cfg) (s : Scalar) (cs : List Node) (c : DeltaContext)
    (items : List PItem) : (s.ops cfg).initItems (.mk cs (some c)) items =
      (c.initAll mixedElem (items.map fun it => (s.elem cfg it.env, it.val)) >>= fun c =>
        .ok (.mk cs (some c))) := by
  induction items generalizing c with
  | nil => rfl
  | cons it items ih =>
    simp only [TypeOps.initItems, DeltaContext.initAll, List.map_cons, bind_assoc,
      DeltaContext.init_mixed]
    rw [show (s.ops cfg).initContext it.env it.val (.mk cs (some c)) =
      (c.init (s.elem cfg it.env) it.val >>= fun c => .ok (.mk cs (some c))) from ?_, bind_assoc]
    · congr 1; funext c'; simp only [Res.ok_bind]; exact ih c'
    · simp only [Scalar.ops, Elem.packable, Node.onContext, bind_assoc, Res.pure_eq, Res.ok_bind]

/-- The numbers that are written, out of numbers marked as written or not. -/
def writtenOf (ps : List (Nat × Bool)) : List Nat := (ps.filter Prod.snd).map Prod.fst

/-- Dropping zeros from a list does not make steps larger than the largest step of the list. -/
theorem reachable_written {md : Mode} {m : Nat} (hm : m ≤ 62) {p q : Nat} {ps : List (Nat × Bool)}
    (hq : q = p ∨ (q = 0 ∧ p < 2 ^ m))
    (h64 : ∀ x ∈ ps, x.1 < 2 ^ 64) (hz : ∀ x ∈ ps, x.2 = false → x.1 = 0)
    (hf : ∀ d ∈ deltas (q :: ps.map Prod.fst), d < 2 ^ m)
    (hs : ∀ a ∈ p :: writtenOf ps, ∀ b ∈ p :: writtenOf ps, absDiff a b < 2 ^ 62 → Safe md a b) :
    DeltaContext.Reachable md m p (writtenOf ps) := by
  induction ps generalizing p q with
  | nil => trivial
  | cons x ps ih =>
    obtain ⟨u, b⟩ := x
    have h1 : absDiff q u < 2 ^ m := hf _ (List.mem_cons_self ..)
    have hf' : ∀ d ∈ deltas (u :: ps.map Prod.fst), d < 2 ^ m :=
      fun d hd => hf d (List.mem_cons_of_mem _ hd)
    have h64' := fun x hx => h64 x (List.mem_cons_of_mem _ hx)
    have hz' := fun x hx => hz x (List.mem_cons_of_mem _ hx)
    cases b with
    | false =>
      have hu : u = 0 := hz (u, false) (List.mem_cons_self ..) rfl
      subst hu
      have e : writtenOf ((0, false) :: ps) = writtenOf ps := by simp [writtenOf]
      rw [e] at hs ⊢
      refine ih (q := 0) ?_ h64' hz' hf' hs
      right
      refine ⟨rfl, ?_⟩
      rcases hq with rfl | ⟨_, h⟩
      · unfold absDiff at h1; split at h1 <;> omega
      · exact h
    | true =>
      have e : writtenOf ((u, true) :: ps) = u :: writtenOf ps := by simp [writtenOf]
      rw [e] at hs ⊢
      have hd : absDiff p u < 2 ^ m := by
        rcases hq with rfl | ⟨rfl, h⟩
        · exact h1
        · unfold absDiff at h1 ⊢
          split <;> split at h1 <;> omega
      refine ⟨h64 _ (List.mem_cons_self ..), hd, ?_, ih (q := u) (.inl rfl) h64' hz' hf'
        (fun a ha b hb => hs a (List.mem_cons_of_mem _ ha) b (List.mem_cons_of_mem _ hb))⟩
      exact hs p (List.mem_cons_self ..) u (by simp)
        (Nat.lt_of_lt_of_le hd (Nat.pow_le_pow_right (by decide) hm))

/-- The same, for the first number that is written. -/
theorem reachable_first {md : Mode} {m : Nat} (hm : m ≤ 62) {ps : List (Nat × Bool)}
    (h64 : ∀ x ∈ ps, x.1 < 2 ^ 64) (hz : ∀ x ∈ ps, x.2 = false → x.1 = 0)
    (hf : ∀ d ∈ deltas (ps.map Prod.fst), d < 2 ^ m)
    (hs : ∀ a ∈ writtenOf ps, ∀ b ∈ writtenOf ps, absDiff a b < 2 ^ 62 → Safe md a b)
    {u : Nat} {rest : List Nat} (he : writtenOf ps = u :: rest) :
    DeltaContext.Reachable md m u rest := by
  induction ps with
  | nil => cases he
  | cons x ps ih =>
    obtain ⟨v, b⟩ := x
    have hsub : ∀ d ∈ deltas (ps.map Prod.fst), d ∈ deltas (v :: ps.map Prod.fst) := by
      intro d hd
      cases ps with
      | nil => cases hd
      | cons y ps => exact List.mem_cons_of_mem _ hd
    cases b with
    | false =>
      have e : writtenOf ((v, false) :: ps) = writtenOf ps := by simp [writtenOf]
      rw [e] at hs he
      exact ih (fun x hx => h64 x (List.mem_cons_of_mem _ hx))
        (fun x hx => hz x (List.mem_cons_of_mem _ hx)) (fun d hd => hf d (hsub d hd)) hs he
    | true =>
      have e : writtenOf ((v, true) :: ps) = v :: writtenOf ps := by simp [writtenOf]
      rw [e] at hs he
      cases he
      exact reachable_written hm (q := u) (.inl rfl) (fun x hx => h64 x (List.mem_cons_of_mem _ hx))
        (fun x hx => hz x (List.mem_cons_of_mem _ hx)) hf hs

/-- The numbers of items of a builtin type. -/
inductive PItemNums (cfg : Cfg) (s : Scalar) : List PItem → List Nat → Prop
  | nil : PItemNums cfg s [] []
  | cons {it its u us} (hu : (s.elem cfg it.env).toU64 it.val = .ok u) (h : PItemNums cfg s its us) :
      PItemNums cfg s (it :: its) (u :: us)

theorem Scalar.follows {cfg : Cfg} {s : Scalar} {items : List PItem} {us : List Nat}
    (hnum : PItemNums cfg s items us)
    (hg : ∀ it ∈ items, ElemGood (s.elem cfg it.env) s.dflt it.val)
    {cw cr : DeltaContext} (h : DeltaContext.InStep cfg.md us cw cr) :
    (s.ops cfg).Follows items (.mk [] (some cw)) (.mk [] (some cr)) := by
  induction hnum generalizing cw cr with
  | nil => trivial
  | @cons it its u us hu hnum ih =>
    intro before
    obtain ⟨bits, w', r', hw, hr, hin'⟩ := h.step (hg it (List.mem_cons_self ..)) hu before
    refine ⟨bits, .mk [] (some w'), .mk [] (some r'), ?_, fun after => ?_,
      ih (fun x hx => hg x (List.mem_cons_of_mem _ hx)) hin'⟩
    · simp only [Scalar.ops, Elem.packable, Node.onContext, hw, Res.ok_bind, Res.pure_eq]
    · simp only [Scalar.ops, Elem.packable, Scalar.dflt_withParams, hr after, Res.ok_bind,
        Res.pure_eq]

/-- Values of an integer type can be packed. -/
theorem Scalar.packsAll {cfg : Cfg} {s : Scalar} (hp : s.isPackable = true) (hw : s.WidthOk)
    (hn : cfg.md = .release ∨ s.Narrow) (z : Bool) : (s.ops cfg).PacksAll (s.InRange cfg) z := by
  intro items hitems
  -- numbers and sizes of all items
  have hall : ∀ items : List PItem, (∀ it ∈ items, if it.written then s.InRange cfg it.env it.val
      else z = true ∧ it.val = s.dflt) → ∃ us ss : List Nat,
      Inits mixedElem (items.map fun it => (s.elem cfg it.env, it.val)) us ss ∧
      us.length = items.length ∧
      (∀ x ∈ us.zip (items.map PItem.written), x.2 = false → x.1 = 0) ∧
      PItemNums cfg s (items.filter PItem.written)
        (writtenOf (us.zip (items.map PItem.written))) := by
    intro items
    induction items with
    | nil => intro _; exact ⟨[], [], .nil, rfl, by simp, .nil⟩
    | cons it items ih =>
      intro h
      obtain ⟨us, ss, h1, h2, h3, h4⟩ := ih (fun x hx => h x (List.mem_cons_of_mem _ hx))
      have hit := h it (List.mem_cons_self ..)
      cases hwr : it.written with
      | true =>
        rw [hwr, if_pos rfl] at hit
        obtain ⟨⟨k, hk⟩, _, u, h64, hu, _⟩ := Scalar.good hp hw hit
        refine ⟨u :: us, k :: ss, .cons hk hu h64 h1, by simp [h2], ?_, ?_⟩
        · intro x hx
          simp only [List.map_cons, List.zip_cons_cons, List.mem_cons, hwr] at hx
          rcases hx with rfl | hx
          · simp
          · exact h3 x hx
        · simp only [List.filter_cons, hwr, if_true, List.map_cons, List.zip_cons_cons, writtenOf]
          exact .cons hu h4
      | false =>
        rw [hwr, if_neg (by simp)] at hit
        obtain ⟨k, hk⟩ := Scalar.dflt_size (cfg := cfg) (env := it.env) hp
        have hu := Scalar.dflt_number (cfg := cfg) (env := it.env) hp
        rw [← hit.2] at hk hu
        refine ⟨0 :: us, k :: ss, .cons hk hu (by decide) h1, by simp [h2], ?_, ?_⟩
        · intro x hx
          simp only [List.map_cons, List.zip_cons_cons, List.mem_cons, hwr] at hx
          rcases hx with rfl | hx
          · simp
          · exact h3 x hx
        · simp only [List.filter_cons, hwr, List.map_cons, List.zip_cons_cons, writtenOf,
            Bool.false_eq_true, if_false]
          exact h4
  obtain ⟨us, ss, hin, hlen, hz, hnum⟩ := hall items hitems
  by_cases hne : items = []
  · subst hne; exact ⟨_, rfl, trivial⟩
  obtain ⟨c, hc, hinit⟩ := DeltaContext.initAll_new hin (by simpa using hne)
  refine ⟨.mk [] (some c), ?_, ?_⟩
  · show (s.ops cfg).initItems (.mk [] (some DeltaContext.new)) items = _
    rw [Scalar.initItems_eq, hc]; rfl
  have hvalid : ∀ it ∈ items.filter PItem.written, s.InRange cfg it.env it.val := by
    intro it hit
    rw [List.mem_filter] at hit
    have := hitems it hit.1
    rw [hit.2, if_pos rfl] at this
    exact this
  have hmem : ∀ its us, PItemNums cfg s its us → ∀ u ∈ us, ∃ it ∈ its,
      (s.elem cfg it.env).toU64 it.val = .ok u := by
    intro its us h
    induction h with
    | nil => simp
    | cons hu _ ih =>
      intro u hmem
      rcases List.mem_cons.1 hmem with rfl | hmem
      · exact ⟨_, List.mem_cons_self .., hu⟩
      · obtain ⟨it, h1, h2⟩ := ih u hmem
        exact ⟨it, List.mem_cons_of_mem _ h1, h2⟩
  have hfst : (us.zip (items.map PItem.written)).map Prod.fst = us := by
    rw [List.map_fst_zip]; simp [hlen]
  refine Scalar.follows hnum (fun it hit => Scalar.good hp hw (hvalid it hit)) ?_
  have h62 : c.isPacked = true → c.maxBitNumber ≤ 62 := by
    intro hk
    rw [hinit.packed] at hk
    simp only [Bool.and_eq_true, decide_eq_true_eq] at hk
    omega
  refine .fresh hinit.processing h62 (fun hk u rest he => ?_)
  refine reachable_first (h62 hk) ?_ hz (by rw [hfst]; exact hinit.fits (h62 hk)) ?_ he
  · intro x hx
    have : x.1 ∈ us := by rw [← hfst]; exact List.mem_map_of_mem hx
    exact DeltaContext.Inits.lt64 hin _ this
  · intro a ha b hb hd
    obtain ⟨ia, ha1, ha2⟩ := hmem _ _ hnum a ha
    obtain ⟨ib, hb1, hb2⟩ := hmem _ _ hnum b hb
    exact Scalar.safe hn (hvalid _ ha1) (hvalid _ hb1) ha2 hb2 hd

/-! ## Enums and bitmasks -/

/-- A node whose only child belongs to the number an enum or bitmask is stored as. -/
theorem numberCodec_packs {cfg : Cfg} {base : Scalar} {dflt : Val} {number item : Val → Res Val}
    {own : Option DeltaContext} {items : List PItem} {nums : Val → Val}
    (hnum : ∀ it ∈ items, number it.val = .ok (nums it.val))
    (hitem : ∀ it ∈ items, it.written = true → item (nums it.val) = .ok it.val)
    (h : (base.ops cfg).Packs (items.map fun it => ⟨⟨[], []⟩, nums it.val, it.written⟩)) :
    (numberCodec cfg base dflt number item own).ops.Packs items := by
  obtain ⟨n, hn, hf⟩ := h
  refine ⟨.mk [n] own, ?_, ?_⟩
  · have gen : ∀ (its : List PItem), (∀ it ∈ its, number it.val = .ok (nums it.val)) → ∀ c,
        (numberCodec cfg base dflt number item own).ops.initItems (.mk [c] own) its =
        ((base.ops cfg).initItems c (its.map fun it => ⟨⟨[], []⟩, nums it.val, it.written⟩) >>=
          fun c => .ok (.mk [c] own)) := by
      intro its
      induction its with
      | nil => intro _ c; rfl
      | cons it its ih =>
        intro hn c
        simp only [TypeOps.initItems, List.map_cons, bind_assoc]
        rw [show (numberCodec cfg base dflt number item own).ops.initContext it.env it.val
            (.mk [c] own) = ((base.ops cfg).initContext ⟨[], []⟩ (nums it.val) c >>= fun c =>
              .ok (.mk [c] own)) from ?_, bind_assoc]
        · congr 1; funext c'; simp only [Res.ok_bind]
          exact ih (fun x hx => hn x (List.mem_cons_of_mem _ hx)) c'
        · simp only [Codec.ops, numberCodec, hn it (List.mem_cons_self ..), Res.ok_bind,
            Node.onChild, List.getElem?_cons_zero, bind_assoc, Res.pure_eq, List.set_cons_zero]
    show (numberCodec cfg base dflt number item own).ops.initItems
      (.mk [(base.ops cfg).createContext] own) items = _
    rw [gen items hnum, hn]; rfl
  · have gen : ∀ (its : List PItem), (∀ it ∈ its, it ∈ items ∧ it.written = true) → ∀ w r,
        (base.ops cfg).Follows (its.map fun it => ⟨⟨[], []⟩, nums it.val, it.written⟩) w r →
        (numberCodec cfg base dflt number item own).ops.Follows its (.mk [w] own) (.mk [r] own) := by
      intro its
      induction its with
      | nil => intro _ _ _ _; trivial
      | cons it its ih =>
        intro hmem w r hf before
        obtain ⟨bits, w', r', h1, h2, h3⟩ := hf before
        obtain ⟨hm, hwr⟩ := hmem it (List.mem_cons_self ..)
        refine ⟨bits, .mk [w'] own, .mk [r'] own, ?_, fun after => ?_,
          ih (fun x hx => hmem x (List.mem_cons_of_mem _ hx)) w' r' h3⟩
        · simp only [Codec.ops, numberCodec, hnum it hm, Res.ok_bind, Node.onChild,
            List.getElem?_cons_zero, h1, Res.pure_eq, List.set_cons_zero]
        · have h2 := h2 after
          rw [show (base.ops cfg).dflt = base.dflt from rfl, Scalar.dflt_withParams] at h2
          simp only [Codec.ops, numberCodec, Node.onChild, List.getElem?_cons_zero, h2,
            Res.ok_bind, Res.pure_eq, List.set_cons_zero, hitem it hm hwr]
    refine gen _ ?_ _ _ ?_
    · intro it hit; rw [List.mem_filter] at hit; exact hit
    · rw [List.filter_map] at hf; exact hf

theorem numberCodec_rt {cfg : Cfg} {base : Scalar} {dflt : Val} {number item : Val → Res Val}
    {own : Option DeltaContext} {x v : Val} (hw : base.WidthOk)
    (hnum : number x = .ok v) (hitem : item v = .ok x) (hv : base.InRange cfg ⟨[], []⟩ v)
    (old : Val) :
    RoundTrips (fun w => (numberCodec cfg base dflt number item own).write x w)
      (fun r => (numberCodec cfg base dflt number item own).read old r) x := by
  intro before
  obtain ⟨bits, h1, h2⟩ := Scalar.roundTrips hw hv before
  simp only at h1 h2
  refine ⟨bits, ?_, fun after => ?_⟩
  · simp only [numberCodec, hnum, Res.ok_bind, h1]
  · simp only [numberCodec, h2 after, hitem, Res.ok_bind, Res.pure_eq]

end Zs
