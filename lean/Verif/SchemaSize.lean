import Verif.SizeLemmas

/-!
# Sizes of generated types

Whenever a generated writer succeeds, the generated size function gives the number of bits written.
For the packed variants the context trees of the writer and of the size function agree up to the
previous elements (`Node.Same`).
-/

namespace Zs

open Spec

/-- Contexts of writer and size function. -/
def SameContext : Option DeltaContext → Option DeltaContext → Prop
  | .none, .none => True
  | .some w, .some b => SameMode w b
  | _, _ => False

mutual
/-- Context trees of writer and size function. -/
def Node.Same : Node → Node → Prop
  | .mk cs c, .mk cs' c' => SameContext c c' ∧ Node.AllSame cs cs'
/-- Child by child. -/
def Node.AllSame : List Node → List Node → Prop
  | [], [] => True
  | n :: ns, m :: ms => n.Same m ∧ Node.AllSame ns ms
  | _, _ => False
end

theorem SameContext.refl (c : Option DeltaContext) : SameContext c c := by
  cases c with
  | none => trivial
  | some c => exact ⟨rfl, rfl, rfl, rfl, rfl, rfl⟩

mutual
theorem Node.Same.refl : (n : Node) → n.Same n
  | .mk cs c => by rw [Node.Same]; exact ⟨SameContext.refl c, Node.AllSame.refl cs⟩
theorem Node.AllSame.refl : (ns : List Node) → Node.AllSame ns ns
  | [] => by rw [Node.AllSame]; trivial
  | n :: ns => by rw [Node.AllSame]; exact ⟨Node.Same.refl n, Node.AllSame.refl ns⟩
end

theorem Node.AllSame.get {ns ms : List Node} (h : Node.AllSame ns ms) {i : Nat} {n : Node}
    (hi : ns[i]? = .some n) : ∃ m, ms[i]? = .some m ∧ n.Same m := by
  induction ns generalizing ms i with
  | nil => simp at hi
  | cons a ns ih =>
    cases ms with
    | nil => rw [Node.AllSame] at h <;> first | exact h.elim | simp
    | cons b ms =>
      rw [Node.AllSame] at h
      cases i with
      | zero => simp at hi; subst hi; exact ⟨b, rfl, h.1⟩
      | succ i => simp at hi; obtain ⟨m, h1, h2⟩ := ih h.2 hi; exact ⟨m, by simpa using h1, h2⟩

theorem Node.AllSame.set {ns ms : List Node} (h : Node.AllSame ns ms) (i : Nat) {n m : Node}
    (hn : n.Same m) : Node.AllSame (ns.set i n) (ms.set i m) := by
  induction ns generalizing ms i with
  | nil =>
    cases ms with
    | nil => simpa using h
    | cons b ms => rw [Node.AllSame] at h <;> first | exact h.elim | simp
  | cons a ns ih =>
    cases ms with
    | nil => rw [Node.AllSame] at h <;> first | exact h.elim | simp
    | cons b ms =>
      rw [Node.AllSame] at h
      cases i with
      | zero => simp only [List.set_cons_zero]; rw [Node.AllSame]; exact ⟨hn, h.2⟩
      | succ i => simp only [List.set_cons_succ]; rw [Node.AllSame]; exact ⟨h.1, ih h.2 i⟩

/-- A packed writer and a packed size function stay in step on one value. -/
def PackStep (write : Node → Writer → Res (Writer × Node))
    (size : Node → Nat → Res (Nat × Node)) : Prop :=
  ∀ (wn bn : Node), wn.Same bn → ∀ (w w' : Writer) (wn' : Node), write wn w = .ok (w', wn') →
    ∃ k bn', size bn w.bits.length = .ok (k, bn') ∧ w'.bits.length = w.bits.length + k ∧
      wn'.Same bn'

/-- The same where the size function gives the end position. -/
def EndStep (write : Node → Writer → Res (Writer × Node))
    (size : Node → Nat → Res (Nat × Node)) : Prop :=
  ∀ (wn bn : Node), wn.Same bn → ∀ (w w' : Writer) (wn' : Node), write wn w = .ok (w', wn') →
    ∃ bn', size bn w.bits.length = .ok (w'.bits.length, bn') ∧ w.bits.length ≤ w'.bits.length ∧
      wn'.Same bn'

theorem PackStep.onChild {write : Node → Writer → Res (Writer × Node)}
    {size : Node → Nat → Res (Nat × Node)} (h : PackStep write size) (i : Nat) :
    PackStep (fun n w => n.onChild i (fun c => write c w))
      (fun n p => n.onChild i (fun c => size c p)) := by
  intro wn bn hs w w' wn' hw
  obtain ⟨cs, c⟩ := wn
  obtain ⟨cs', c'⟩ := bn
  rw [Node.Same] at hs
  simp only [Node.onChild] at hw ⊢
  cases hi : cs[i]? with
  | none => rw [hi] at hw; cases hw
  | some child =>
    rw [hi] at hw
    obtain ⟨⟨w1, n1⟩, h1, hw⟩ := Res.bind_eq_ok.1 hw
    cases hw
    obtain ⟨m, hm, hsm⟩ := hs.2.get hi
    obtain ⟨k, b', hk, hl, hs'⟩ := h _ _ hsm _ _ _ h1
    rw [hm]
    refine ⟨k, .mk (cs'.set i b') c', by simp [hk], hl, ?_⟩
    rw [Node.Same]
    exact ⟨hs.1, hs.2.set i hs'⟩

theorem PackStep.unwrap {write : Node → Writer → Res (Writer × Node)}
    {size : Node → Nat → Res (Nat × Node)} (h : PackStep write size) :
    PackStep write (fun n p => (size n p).unwrap) := by
  intro wn bn hs w w' wn' hw
  obtain ⟨k, b', hk, hl, hs'⟩ := h _ _ hs _ _ _ hw
  exact ⟨k, b', by simp [hk], hl, hs'⟩

/-- A delta context. -/
theorem PackStep.delta {md : Mode} {e : Elem Val} {x : Val}
    (hsz : SizeExact (fun _ => e.bitsizeOf 0 x) (fun w => e.write w x)) :
    PackStep (fun n w => (e.packable md).writePacked n w x)
      (fun n p => (e.packable md).bitsizeOfPacked n p x) := by
  intro wn bn hs w w' wn' hw
  obtain ⟨cs, c⟩ := wn
  obtain ⟨cs', c'⟩ := bn
  rw [Node.Same] at hs
  simp only [Elem.packable, Node.onContext] at hw ⊢
  cases c with
  | none => cases hw
  | some c =>
    cases c' with
    | none => exact hs.1.elim
    | some c' =>
      obtain ⟨⟨w1, c1⟩, h1, hw⟩ := Res.bind_eq_ok.1 hw
      cases hw
      obtain ⟨n, b', hb, hlen, hsame'⟩ := delta_size_step hsz hs.1 h1
      refine ⟨n, .mk cs' (some b'), by simp [hb], hlen, ?_⟩
      rw [Node.Same]
      exact ⟨hsame', hs.2⟩

/-- The size functions of a type are exact, in the contexts where they are claimed to be. -/
structure SizeGood (t : TypeOps) (sized packSized : Prop) (elem packElem : Prop) : Prop where
  field : sized → ∀ env v, v.Consistent →
    SizeExact (fun p => t.bitsize env v p) (fun w => t.write env v w)
  packed : packSized → ∀ env v, v.Consistent →
    PackStep (fun n w => t.writePacked env v n w) (fun n p => t.bitsizePacked env v n p)
  elem : elem → ∀ env v, v.Consistent →
    SizeExact (fun p => (t.arrayTrait env).bitsizeOf p v) (fun w => (t.arrayTrait env).write w v)
  packElem : packElem → ∀ env v, v.Consistent →
    PackStep (fun n w => (t.arrayTrait env).writePacked n w v)
      (fun n p => (t.arrayTrait env).bitsizeOfPacked n p v)
  const : ∀ env, (t.arrayTrait env).isBitsizeofConstant = true → ∀ x y p q m n,
    (t.arrayTrait env).bitsizeOf p x = .ok m → (t.arrayTrait env).bitsizeOf q y = .ok n → m = n
  bits : packSized → t.fixedBits = none

theorem Scalar.sizeGood (cfg : Cfg) (s : Scalar) :
    SizeGood (s.ops cfg) s.FieldSized s.PackSized s.ElemSized s.ElemSized where
  field hs env v hv := Scalar.size_field hs hv
  packed hs env v hv := by
    have he : s.ElemSized := by cases s <;> first | exact hs | trivial
    have key := PackStep.delta (md := cfg.md) (e := s.elem cfg env) (x := v) (by
      have := Scalar.size_elem (cfg := cfg) (env := env) he hv
      intro w w' h
      obtain ⟨n, h1, h2⟩ := this w w' h
      exact ⟨n, by simp only at h1 ⊢; rw [← h1]; exact s.elem_position v _ _, h2⟩)
    cases s <;> first | exact absurd hs id | exact key
  elem hs env v hv := Scalar.size_elem hs hv
  packElem hs env v hv := PackStep.delta (by
    have := Scalar.size_elem (cfg := cfg) (env := env) hs hv
    intro w w' h
    obtain ⟨n, h1, h2⟩ := this w w' h
    exact ⟨n, by simp only at h1 ⊢; rw [← h1]; exact s.elem_position v _ _, h2⟩)
  const env hc x y p q m n := s.elem_const hc x y p q m n
  bits hs := by cases s <;> first | exact absurd hs id | rfl

/-- The size functions of generated code. -/
theorem Codec.sizeGood {c : Codec} {sized packSized : Prop}
    (h1 : sized → ∀ v, v.Consistent → SizeExact (fun p => c.bitsize v p) (fun w => c.write v w))
    (h2 : packSized → ∀ v, v.Consistent →
      PackStep (fun n w => c.writePacked v n w) (fun n p => c.bitsizePacked v n p)) :
    SizeGood c.ops sized packSized sized packSized where
  field hs env v hv := sizeExact_unwrap (h1 hs v hv)
  packed hs env v hv := PackStep.unwrap (h2 hs v hv)
  elem hs env v hv := h1 hs v hv
  packElem hs env v hv := h2 hs v hv
  const env hc := by cases hc
  bits _ := rfl

/-! ## Fields -/

/-- The claim about the size of one field. -/
def FieldSized (info : FieldInfo) (delta : Bool) (packed : Bool)
    (sized packSized elem packElem : Prop) : Prop :=
  match info.array with
  | none => if (packed && (!info.isOffsetField && delta)) = true then packSized else sized
  | some a => if ((a.isPacked || packed) && !info.isOffsetField) = true then packElem else elem

theorem align_size {a : Nat} {w w' : Writer} (h : alignWriter w a = .ok w') :
    ∃ n, alignBitsize w.bits.length a = .ok n ∧ w'.bits.length = w.bits.length + n := by
  unfold alignWriter at h
  unfold alignBitsize
  split at h
  · cases h
  · rename_i h0
    simp only [Writer.skip] at h
    cases h
    exact ⟨_, by rw [if_neg h0], by simp [Writer.append, Writer.bitCount]⟩

namespace FieldOps

theorem align_size (f : FieldOps) {w w' : Writer} (h : f.alignWriter w = .ok w') :
    f.alignBitsize w.bits.length = .ok w'.bits.length ∧ w.bits.length ≤ w'.bits.length := by
  unfold FieldOps.alignWriter at h
  unfold FieldOps.alignBitsize
  obtain ⟨w1, h1, h⟩ := Res.bind_eq_ok.1 h
  have a1 : (if f.info.alignment = 0 then pure w.bits.length else do
      let n ← Zs.alignBitsize w.bits.length f.info.alignment
      pure (w.bits.length + n)) = .ok w1.bits.length ∧ w.bits.length ≤ w1.bits.length := by
    split at h1
    · rename_i h0; cases h1; exact ⟨by rw [if_pos h0]; rfl, Nat.le_refl _⟩
    · rename_i h0
      obtain ⟨n, hn, hl⟩ := Zs.align_size h1
      rw [if_neg h0, hn, hl]
      exact ⟨rfl, by omega⟩
  rw [a1.1, Res.ok_bind]
  split at h
  · rename_i h0
    obtain ⟨n, hn, hl⟩ := Zs.align_size h
    rw [if_pos h0, hn, hl]
    exact ⟨rfl, by omega⟩
  · rename_i h0; cases h; exact ⟨by rw [if_neg h0]; rfl, a1.2⟩

/-- The trees play no role for a packed array inside an object: it has contexts of its own. -/
theorem packedSize_of_step {t : ArrayTrait Val} {xs : List Val}
    (h : ∀ x ∈ xs, PackStep (fun n w => t.writePacked n w x) (fun n p => t.bitsizeOfPacked n p x)) :
    PackedSize t xs := by
  refine ⟨fun rest w b => (∀ x ∈ rest, x ∈ xs) ∧ w.Same b, fun n _ => ⟨fun x hx => hx, .refl n⟩, ?_⟩
  rintro x rest w b ⟨hmem, hs⟩ s s' w' hw
  obtain ⟨k, b', h1, h2, h3⟩ := h x (hmem x (List.mem_cons_self ..)) _ _ hs _ _ _ hw
  exact ⟨k, b', h1, h2, fun y hy => hmem y (List.mem_cons_of_mem _ hy), h3⟩

variable {f : FieldOps} {packed : Bool} {sized packSized elem packElem : Prop}

theorem size_content (hg : SizeGood f.ty sized packSized elem packElem)
    (hs : FieldSized f.info f.ty.isPackable packed sized packSized elem packElem) (i : Nat)
    (env : Env) {v : Val} (hv : v.Consistent) :
    EndStep (fun n w => f.encodeContent packed i env v n w)
      (fun n p => f.bitsizeContent packed i env v n p) := by
  intro wn bn hsame w w' wn' hw
  unfold FieldSized at hs
  simp only [encodeContent] at hw
  simp only [bitsizeContent]
  cases ha : f.info.array with
  | none =>
    simp only [ha] at hs hw ⊢
    obtain ⟨_, _, hw⟩ := Res.bind_eq_ok.1 hw
    have hpk : f.isPackable = (!f.info.isOffsetField && f.ty.isPackable) := by
      unfold isPackable; cases f.info.isOffsetField <;> simp [ha]
    unfold encodeType at hw
    unfold bitsizeType
    rw [hpk] at hw ⊢
    split at hw
    · rename_i hp
      rw [if_pos hp] at hs ⊢
      rw [hg.bits hs]
      obtain ⟨k, b', hk, hl, hs'⟩ := ((hg.packed hs env v hv).onChild i) _ _ hsame _ _ _ hw
      simp only at hk
      exact ⟨b', by rw [hk, hl]; rfl, by omega, hs'⟩
    · rename_i hp
      rw [if_neg hp] at hs ⊢
      obtain ⟨w1, h1, hw⟩ := Res.bind_eq_ok.1 hw
      cases hw
      obtain ⟨k, hk, hl⟩ := hg.field hs env v hv _ _ h1
      simp only at hk
      exact ⟨bn, by rw [hk, hl]; rfl, by omega, hsame⟩
  | some a =>
    simp only [ha] at hs hw ⊢
    cases v with
    | list xs =>
      simp only at hw ⊢
      obtain ⟨_, _, hw⟩ := Res.bind_eq_ok.1 hw
      obtain ⟨_, _, hw⟩ := Res.bind_eq_ok.1 hw
      obtain ⟨w1, h1, hw⟩ := Res.bind_eq_ok.1 hw
      cases hw
      rw [Val.Consistent] at hv
      have hc := Val.consistent_of_mem hv
      have hpk : f.isPackable = !f.info.isOffsetField := by
        unfold isPackable; cases f.info.isOffsetField <;> simp [ha]
      have hsz := array_size_exact (f.arrayDef packed env a) f.indexed xs (by
        simp only [arrayDef, hpk]
        split
        · rename_i hp
          rw [if_pos hp] at hs
          exact packedSize_of_step (fun x hx => hg.packElem hs env x (hc x hx))
        · rename_i hp
          rw [if_neg hp] at hs
          exact fun x hx => hg.elem hs env x (hc x hx))
        (fun _ hk x _ y _ p q m n => hg.const env hk x y p q m n)
      obtain ⟨k, hk, hl⟩ := hsz _ _ h1
      simp only at hk
      exact ⟨bn, by rw [hk, hl]; rfl, by omega, hsame⟩
    | _ => cases hw

/-- The size function of a field. -/
theorem size_field (hg : SizeGood f.ty sized packSized elem packElem)
    (hs : FieldSized f.info f.ty.isPackable packed sized packSized elem packElem) (i : Nat)
    (env : Env) {v : Val} (hv : v.Consistent) :
    EndStep (fun n w => f.encode packed i env v n w)
      (fun n p => f.bitsize packed i env v n p) := by
  intro wn bn hsame w w' wn' hw
  simp only [encode] at hw
  simp only [bitsize]
  cases hp : f.present env with
  | false =>
    simp only [hp, Bool.false_eq_true, if_false] at hw ⊢
    cases hw
    exact ⟨bn, rfl, Nat.le_refl _, hsame⟩
  | true =>
    simp only [hp, if_true] at hw ⊢
    obtain ⟨w1, h1, hw⟩ := Res.bind_eq_ok.1 hw
    obtain ⟨a1, a2⟩ := f.align_size h1
    rw [a1, Res.ok_bind]
    unfold encodeOptional at hw
    unfold bitsizeOptional
    split at hw
    · rename_i ho
      rw [if_pos ho]
      cases v with
      | some x =>
        simp only at hw ⊢
        obtain ⟨w2, h2, hw⟩ := Res.bind_eq_ok.1 hw
        have hb := Adds.writeBool _ _ _ h2
        rw [Val.Consistent] at hv
        obtain ⟨b', hk, hl, hs'⟩ := size_content hg hs i env hv _ _ hsame _ _ _ hw
        rw [hb] at hk hl
        exact ⟨b', hk, by omega, hs'⟩
      | none =>
        simp only at hw ⊢
        obtain ⟨w2, h2, hw⟩ := Res.bind_eq_ok.1 hw
        have hb := Adds.writeBool _ _ _ h2
        cases hw
        exact ⟨bn, by rw [hb]; rfl, by omega, hsame⟩
      | _ => cases hw
    · rename_i ho
      rw [if_neg ho]
      obtain ⟨b', hk, hl, hs'⟩ := size_content hg hs i env hv _ _ hsame _ _ _ hw
      exact ⟨b', hk, by omega, hs'⟩

end FieldOps

/-! ## Structures, choices, unions -/

/-- The size functions of a list of fields are exact. -/
def FieldsSizeGood (packed : Bool) (fs : List FieldOps) : Prop :=
  ∀ f ∈ fs, ∀ i env (v : Val), v.Consistent →
    EndStep (fun n w => f.encode packed i env v n w) (fun n p => f.bitsize packed i env v n p)

theorem size_fields {packed : Bool} {params : List Val} {fs : List FieldOps}
    (h : FieldsSizeGood packed fs) (i : Nat) (done vs : List Val) (hv : Val.AllConsistent vs) :
    EndStep (fun n w => encodeFields packed params fs i done vs n w)
      (fun n p => bitsizeFields packed params fs i done vs n p) := by
  induction fs generalizing i done vs with
  | nil =>
    intro wn bn hs w w' wn' hw
    cases vs with
    | nil => cases hw; exact ⟨bn, rfl, Nat.le_refl _, hs⟩
    | cons v vs => cases hw
  | cons f fs ih =>
    intro wn bn hs w w' wn' hw
    cases vs with
    | nil => cases hw
    | cons v vs =>
      rw [Val.AllConsistent] at hv
      simp only [encodeFields] at hw
      obtain ⟨⟨w1, n1⟩, h1, hw⟩ := Res.bind_eq_ok.1 hw
      obtain ⟨b1, hk1, hl1, hs1⟩ :=
        h f (List.mem_cons_self ..) i ⟨params, done⟩ v hv.1 _ _ hs _ _ _ h1
      obtain ⟨b2, hk2, hl2, hs2⟩ := ih (fun g hg => h g (List.mem_cons_of_mem _ hg)) (i + 1)
        (done ++ [v]) vs hv.2 _ _ hs1 _ _ _ hw
      simp only [bitsizeFields]
      simp only at hk1 hk2
      exact ⟨b2, by rw [hk1, Res.ok_bind, hk2], Nat.le_trans hl1 hl2, hs2⟩

theorem struct_sizeGood {cfg : Cfg} {params : List Val} {fs : List FieldOps} {a b : Prop}
    (h1 : a → FieldsSizeGood false fs) (h2 : b → FieldsSizeGood true fs) :
    SizeGood (structCodec cfg params fs).ops a b a b := by
  refine Codec.sizeGood (fun ha v hv => ?_) (fun hb v hv => ?_)
  · intro w w' hw
    cases v with
    | obj ps vs =>
      rw [Val.Consistent] at hv
      simp only [structCodec] at hw ⊢
      obtain ⟨⟨w1, n1⟩, hw1, hw⟩ := Res.bind_eq_ok.1 hw
      cases hw
      obtain ⟨b', hk, hl, _⟩ := size_fields (h1 ha) 0 [] vs hv _ _ (Node.Same.refl _) _ _ _ hw1
      simp only at hk
      exact ⟨w1.bits.length - w.bits.length, by rw [hk]; rfl, (Nat.add_sub_cancel' hl).symm⟩
    | _ => cases hw
  · intro wn bn hs w w' wn' hw
    cases v with
    | obj ps vs =>
      rw [Val.Consistent] at hv
      simp only [structCodec] at hw ⊢
      obtain ⟨b', hk, hl, hs'⟩ := size_fields (h2 hb) 0 [] vs hv _ _ hs _ _ _ hw
      simp only at hk
      exact ⟨w'.bits.length - w.bits.length, b', by rw [hk]; rfl, by omega, hs'⟩
    | _ => cases hw

theorem selectCase_mem {sel : Val} {i : Nat} {cs : List CaseOps} {j : Nat} {f : FieldOps}
    (h : selectCase sel i cs = .some (j, f)) : f ∈ caseFields cs := by
  induction cs generalizing i with
  | nil => cases h
  | cons c cs ih =>
    simp only [selectCase] at h
    unfold caseFields
    split at h
    · cases hf : c.field with
      | none => rw [hf] at h; cases h
      | some g =>
        rw [hf] at h
        cases h
        rw [List.filterMap_cons_some hf]
        exact List.mem_cons_self ..
    · have := ih h
      unfold caseFields at this
      cases hf : c.field with
      | none => rw [List.filterMap_cons_none hf]; exact this
      | some g => rw [List.filterMap_cons_some hf]; exact List.mem_cons_of_mem _ this

theorem size_choice {packed : Bool} {selector : List Val → Val} {params : List Val}
    {cs : List CaseOps} (h : FieldsSizeGood packed (caseFields cs)) (vs : List Val)
    (hv : Val.AllConsistent vs) :
    EndStep (fun n w => encodeChoice packed selector cs params vs n w)
      (fun n p => bitsizeChoice packed selector cs params vs n p) := by
  intro wn bn hs w w' wn' hw
  simp only [encodeChoice] at hw
  simp only [bitsizeChoice]
  cases hsel : selectCase (selector params) 0 cs with
  | none =>
    rw [hsel] at hw
    cases hw
    exact ⟨bn, rfl, Nat.le_refl _, hs⟩
  | some p =>
    obtain ⟨i, f⟩ := p
    rw [hsel] at hw
    simp only at hw ⊢
    cases hi : vs[i]? with
    | none => rw [hi] at hw; cases hw
    | some v =>
      rw [hi] at hw
      exact h f (selectCase_mem hsel) i ⟨params, []⟩ v
        (Val.consistent_of_mem hv v (List.mem_of_getElem? hi)) _ _ hs _ _ _ hw

theorem choice_sizeGood {cfg : Cfg} {params : List Val} {selector : List Val → Val}
    {cs : List CaseOps} {a b : Prop} (h1 : a → FieldsSizeGood false (caseFields cs))
    (h2 : b → FieldsSizeGood true (caseFields cs)) :
    SizeGood (choiceCodec cfg params selector cs).ops a b a b := by
  refine Codec.sizeGood (fun ha v hv => ?_) (fun hb v hv => ?_)
  · intro w w' hw
    cases v with
    | obj ps vs =>
      rw [Val.Consistent] at hv
      simp only [choiceCodec] at hw ⊢
      obtain ⟨⟨w1, n1⟩, hw1, hw⟩ := Res.bind_eq_ok.1 hw
      cases hw
      obtain ⟨b', hk, hl, _⟩ := size_choice (h1 ha) vs hv _ _ (Node.Same.refl _) _ _ _ hw1
      simp only at hk
      exact ⟨w1.bits.length - w.bits.length, by rw [hk]; rfl, (Nat.add_sub_cancel' hl).symm⟩
    | _ => cases hw
  · intro wn bn hs w w' wn' hw
    cases v with
    | obj ps vs =>
      rw [Val.Consistent] at hv
      simp only [choiceCodec] at hw ⊢
      obtain ⟨b', hk, hl, hs'⟩ := size_choice (h2 hb) vs hv _ _ hs _ _ _ hw
      simp only at hk
      exact ⟨w'.bits.length - w.bits.length, b', by rw [hk]; rfl, by omega, hs'⟩
    | _ => cases hw

theorem union_sizeGood {cfg : Cfg} {params : List Val} {ms : List FieldOps} {a : Prop}
    (h1 : a → FieldsSizeGood false ms) :
    SizeGood (unionCodec cfg params ms).ops a False a False := by
  refine Codec.sizeGood (fun ha v hv => ?_) (fun hb => hb.elim)
  intro w w' hw
  cases v with
  | union ps sel vs =>
    rw [Val.Consistent] at hv
    simp only [unionCodec] at hw ⊢
    obtain ⟨w1, hw1, hw⟩ := Res.bind_eq_ok.1 hw
    obtain ⟨⟨w2, n2⟩, hw2, hw⟩ := Res.bind_eq_ok.1 hw
    cases hw
    obtain ⟨k, hk, hl⟩ := varsize_size _ _ _ hw1
    simp only at hk
    unfold encodeMember at hw2
    unfold bitsizeMember
    cases hm : ms[sel]? with
    | none => rw [hm] at hw2; cases hw2
    | some f =>
      cases hi : vs[sel]? with
      | none => rw [hm, hi] at hw2; cases hw2
      | some v =>
        rw [hm, hi] at hw2
        obtain ⟨b', hk', hl', _⟩ := h1 ha f (List.mem_of_getElem? hm) sel ⟨ps, []⟩ v
          (Val.consistent_of_mem hv v (List.mem_of_getElem? hi)) _ _ (Node.Same.refl _) _ _ _ hw2
        rw [hl] at hk' hl'
        simp only at hk'
        refine ⟨w2.bits.length - w.bits.length, ?_,
          (Nat.add_sub_cancel' (Nat.le_trans (Nat.le_add_right _ _) hl')).symm⟩
        rw [hk, Res.ok_bind]
        simp only
        rw [hk']; rfl
  | _ => cases hw

/-- Enums and bitmasks. -/
theorem number_sizeGood {cfg : Cfg} {base : Scalar} {dflt : Val} {number item : Val → Res Val}
    {own : Option DeltaContext}
    (hnum : ∀ v x, v.Consistent → number v = .ok x → x.Consistent) :
    SizeGood (numberCodec cfg base dflt number item own).ops base.FieldSized base.PackSized
      base.FieldSized base.PackSized := by
  refine Codec.sizeGood (fun ha v hv => ?_) (fun hb v hv => ?_)
  · intro w w' hw
    simp only [numberCodec] at hw ⊢
    obtain ⟨x, hx, hw⟩ := Res.bind_eq_ok.1 hw
    rw [hx]
    exact (base.sizeGood cfg).field ha _ x (hnum v x hv hx) _ _ hw
  · intro wn bn hs w w' wn' hw
    simp only [numberCodec] at hw ⊢
    obtain ⟨x, hx, hw⟩ := Res.bind_eq_ok.1 hw
    rw [hx, show base.fixedBits = none from (base.sizeGood cfg).bits hb]
    exact (((base.sizeGood cfg).packed hb ⟨[], []⟩ x (hnum v x hv hx)).onChild 0) _ _ hs _ _ _ hw

theorem Scalar.ofInt_consistent (s : Scalar) (x : Int) : (s.ofInt x).Consistent := by
  cases s <;> exact (by simp only [Scalar.ofInt, Val.Consistent])

theorem enumNumber_consistent {base : Scalar} {items : List (Option Int)} {v x : Val}
    (h : enumNumber base items v = .ok x) : x.Consistent := by
  unfold enumNumber at h
  split at h
  · split at h
    · cases h; exact Scalar.ofInt_consistent _ _
    · cases h
  · cases h

/-! ## Schemas -/

/-- Elements of arrays of the type. -/
def Ty.ElemSized (t : Ty) : Prop := t.elemRule t.Sized
/-- Elements of packed arrays of the type. -/
def Ty.PackElemSized (t : Ty) : Prop := t.elemRule t.PackSized

theorem Ty.isPackable_ops (cfg : Cfg) (t : Ty) : (t.ops cfg).isPackable = t.deltaPackable := by
  cases t <;> rfl

theorem fieldSized_plain {cfg : Cfg} {info : FieldInfo} {t : Ty}
    (h : match info.array with
      | none => t.Sized
      | some a => t.elemRule (if a.isPacked ∧ info.isOffsetField = false then t.PackSized
        else t.Sized)) :
    FieldSized info (t.ops cfg).isPackable false t.Sized t.PackSized t.ElemSized
      t.PackElemSized := by
  unfold FieldSized
  cases ha : info.array with
  | none => rw [ha] at h; simpa using h
  | some a =>
    rw [ha] at h
    simp only at h ⊢
    unfold Ty.ElemSized Ty.PackElemSized
    cases h1 : a.isPacked <;> cases h2 : info.isOffsetField <;> simpa [h1, h2] using h

theorem fieldSized_packed {cfg : Cfg} {info : FieldInfo} {t : Ty}
    (h : match info.array with
      | none => if info.isOffsetField = false ∧ t.deltaPackable = true then t.PackSized else t.Sized
      | some _ => t.elemRule (if info.isOffsetField = false then t.PackSized else t.Sized)) :
    FieldSized info (t.ops cfg).isPackable true t.Sized t.PackSized t.ElemSized
      t.PackElemSized := by
  unfold FieldSized
  rw [Ty.isPackable_ops]
  cases ha : info.array with
  | none =>
    rw [ha] at h
    cases h2 : info.isOffsetField <;> cases h3 : t.deltaPackable <;> simpa [h2, h3] using h
  | some a =>
    rw [ha] at h
    simp only at h ⊢
    unfold Ty.ElemSized Ty.PackElemSized
    cases h2 : info.isOffsetField <;> simpa [h2] using h

mutual
/-- The size functions generated for a type are exact. -/
theorem Ty.sizeGood (cfg : Cfg) : (t : Ty) →
    SizeGood (t.ops cfg) t.Sized t.PackSized t.ElemSized t.PackElemSized
  | .scalar s => by
    have := s.sizeGood cfg
    simp only [Ty.ops, Ty.Sized, Ty.PackSized, Ty.ElemSized, Ty.PackElemSized, Ty.elemRule]
    exact this
  | .enum base items => by
    simp only [Ty.ops, Ty.Sized, Ty.PackSized, Ty.ElemSized, Ty.PackElemSized, Ty.elemRule]
    exact number_sizeGood (fun v x _ h => enumNumber_consistent h)
  | .bitmask base first => by
    simp only [Ty.ops, Ty.Sized, Ty.PackSized, Ty.ElemSized, Ty.PackElemSized, Ty.elemRule]
    exact number_sizeGood (fun v x hv h => by cases h; exact hv)
  | .struct params fields => by
    simp only [Ty.ops, Ty.Sized, Ty.PackSized, Ty.ElemSized, Ty.PackElemSized, Ty.elemRule]
    exact struct_sizeGood (Fields.sizeGood cfg fields).1 (Fields.sizeGood cfg fields).2
  | .choice params sel cases => by
    simp only [Ty.ops, Ty.Sized, Ty.PackSized, Ty.ElemSized, Ty.PackElemSized, Ty.elemRule]
    exact choice_sizeGood (Cases.sizeGood cfg cases).1 (Cases.sizeGood cfg cases).2
  | .union params members => by
    simp only [Ty.ops, Ty.Sized, Ty.PackSized, Ty.ElemSized, Ty.PackElemSized, Ty.elemRule]
    exact union_sizeGood (Fields.sizeGood cfg members).1
theorem Fields.sizeGood (cfg : Cfg) : (fs : Fields) →
    (fs.Sized → FieldsSizeGood false (fs.ops cfg)) ∧
      (fs.PackSized → FieldsSizeGood true (fs.ops cfg))
  | .nil => ⟨fun _ f hf => by simp [Fields.ops] at hf, fun _ f hf => by simp [Fields.ops] at hf⟩
  | .cons info ty rest => by
    have hty := Ty.sizeGood cfg ty
    have hrest := Fields.sizeGood cfg rest
    simp only [Fields.ops]
    constructor
    · intro h
      rw [Fields.Sized] at h
      intro f hf
      cases hf with
      | head => exact fun i env v hv => FieldOps.size_field hty (fieldSized_plain h.1) i env hv
      | tail _ hf => exact hrest.1 h.2 f hf
    · intro h
      rw [Fields.PackSized] at h
      intro f hf
      cases hf with
      | head => exact fun i env v hv => FieldOps.size_field hty (fieldSized_packed h.1) i env hv
      | tail _ hf => exact hrest.2 h.2 f hf
theorem Cases.sizeGood (cfg : Cfg) : (cs : Cases) →
    (cs.Sized → FieldsSizeGood false (caseFields (cs.ops cfg))) ∧
      (cs.PackSized → FieldsSizeGood true (caseFields (cs.ops cfg)))
  | .nil => ⟨fun _ f hf => by simp [Cases.ops, caseFields] at hf,
      fun _ f hf => by simp [Cases.ops, caseFields] at hf⟩
  | .field labels info ty rest => by
    have hty := Ty.sizeGood cfg ty
    have hrest := Cases.sizeGood cfg rest
    simp only [Cases.ops, caseFields, List.filterMap_cons]
    constructor
    · intro h
      rw [Cases.Sized] at h
      intro f hf
      cases hf with
      | head => exact fun i env v hv => FieldOps.size_field hty (fieldSized_plain h.1) i env hv
      | tail _ hf => exact hrest.1 h.2 f hf
    · intro h
      rw [Cases.PackSized] at h
      intro f hf
      cases hf with
      | head => exact fun i env v hv => FieldOps.size_field hty (fieldSized_packed h.1) i env hv
      | tail _ hf => exact hrest.2 h.2 f hf
  | .empty labels rest => by
    have hrest := Cases.sizeGood cfg rest
    simp only [Cases.ops, caseFields, List.filterMap_cons, Cases.Sized, Cases.PackSized]
    exact hrest
end

end Zs
