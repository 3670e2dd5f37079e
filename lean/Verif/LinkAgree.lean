import Verif.SchemaSpec

/-!
# Codecs that agree on a set of values

The functions of a compound type call those of the types of its fields.  When the functions of the types of
the fields are replaced by others that do the same for the values in a set, so do those of the compound type.
-/

namespace Zs

namespace Link

/-- The functions of `c'` do for the values in `Q` what those of `c` do; the readers do what those of `c` do
if these read a value in `Q` into a new object.  `Q true` is for the functions with packing contexts. -/
structure CodecAgrees (Q : Bool → Val → Prop) (c c' : Codec) : Prop where
  dflt : c'.dflt = c.dflt
  createContext : c'.createContext = c.createContext
  write : ∀ b x w, Q b x → c'.write x w = c.write x w
  bitsize : ∀ b x p, Q b x → c'.bitsize x p = c.bitsize x p
  read : ∀ b ps r x r', c.read (c.dflt.withParams ps) r = .ok (x, r') → Q b x →
    c'.read (c.dflt.withParams ps) r = .ok (x, r')
  initContext : ∀ x n, Q true x → c'.initContext x n = c.initContext x n
  writePacked : ∀ x n w, Q true x → c'.writePacked x n w = c.writePacked x n w
  bitsizePacked : ∀ x n p, Q true x → c'.bitsizePacked x n p = c.bitsizePacked x n p
  readPacked : ∀ ps n r x n' r', c.readPacked (c.dflt.withParams ps) n r = .ok ((x, n'), r') → Q true x →
    c'.readPacked (c.dflt.withParams ps) n r = .ok ((x, n'), r')

/-- The same for array traits. -/
structure TraitAgrees (Q : Bool → Val → Prop) (d : Val) (t t' : ArrayTrait Val) : Prop where
  constant : t'.isBitsizeofConstant = t.isBitsizeofConstant
  createContext : t'.createContext = t.createContext
  write : ∀ b x w, Q b x → t'.write w x = t.write w x
  bitsize : ∀ b x p, Q b x → t'.bitsizeOf p x = t.bitsizeOf p x
  read : ∀ b ps r x r', t.read r (d.withParams ps) = .ok (x, r') → Q b x →
    t'.read r (d.withParams ps) = .ok (x, r')
  initContext : ∀ x n, Q true x → t'.initContext n x = t.initContext n x
  writePacked : ∀ x n w, Q true x → t'.writePacked n w x = t.writePacked n w x
  bitsizePacked : ∀ x n p, Q true x → t'.bitsizeOfPacked n p x = t.bitsizeOfPacked n p x
  readPacked : ∀ ps n r x n' r', t.readPacked n r (d.withParams ps) = .ok ((x, n'), r') → Q true x →
    t'.readPacked n r (d.withParams ps) = .ok ((x, n'), r')

/-- The same for references to types. -/
structure TypeAgrees (Q : Bool → Val → Prop) (t t' : TypeOps) : Prop where
  isMarshaler : t'.isMarshaler = t.isMarshaler
  isPackable : t'.isPackable = t.isPackable
  fixedBits : t'.fixedBits = t.fixedBits
  dflt : t'.dflt = t.dflt
  createContext : t'.createContext = t.createContext
  write : ∀ b env x w, Q b x → t'.write env x w = t.write env x w
  bitsize : ∀ b env x p, Q b x → t'.bitsize env x p = t.bitsize env x p
  read : ∀ b env ps r x r', t.read env (t.dflt.withParams ps) r = .ok (x, r') → Q b x →
    t'.read env (t.dflt.withParams ps) r = .ok (x, r')
  initContext : ∀ env x n, Q true x → t'.initContext env x n = t.initContext env x n
  writePacked : ∀ env x n w, Q true x → t'.writePacked env x n w = t.writePacked env x n w
  bitsizePacked : ∀ env x n p, Q true x → t'.bitsizePacked env x n p = t.bitsizePacked env x n p
  readPacked : ∀ env ps n r x n' r', t.readPacked env (t.dflt.withParams ps) n r = .ok ((x, n'), r') →
    Q true x → t'.readPacked env (t.dflt.withParams ps) n r = .ok ((x, n'), r')
  trait : ∀ env, TraitAgrees Q t.dflt (t.arrayTrait env) (t'.arrayTrait env)

theorem CodecAgrees.trans {Q : Bool → Val → Prop} {a b c : Codec} (h : CodecAgrees Q a b)
    (h' : CodecAgrees Q b c) : CodecAgrees Q a c where
  dflt := h'.dflt.trans h.dflt
  createContext := h'.createContext.trans h.createContext
  write b x w hx := (h'.write b x w hx).trans (h.write b x w hx)
  bitsize b x w hx := (h'.bitsize b x w hx).trans (h.bitsize b x w hx)
  read b ps r x r' hr hx := by
    have := h'.read b ps r x r'
    rw [h.dflt] at this
    exact this (h.read b ps r x r' hr hx) hx
  initContext x n hx := (h'.initContext x n hx).trans (h.initContext x n hx)
  writePacked x n w hx := (h'.writePacked x n w hx).trans (h.writePacked x n w hx)
  bitsizePacked x n w hx := (h'.bitsizePacked x n w hx).trans (h.bitsizePacked x n w hx)
  readPacked ps n r x n' r' hr hx := by
    have := h'.readPacked ps n r x n' r'
    rw [h.dflt] at this
    exact this (h.readPacked ps n r x n' r' hr hx) hx

theorem TraitAgrees.refl {Q : Bool → Val → Prop} {d : Val} (t : ArrayTrait Val) : TraitAgrees Q d t t where
  constant := rfl
  createContext := rfl
  write _ _ _ _ := rfl
  bitsize _ _ _ _ := rfl
  read _ _ _ _ _ h _ := h
  initContext _ _ _ := rfl
  writePacked _ _ _ _ := rfl
  bitsizePacked _ _ _ _ := rfl
  readPacked _ _ _ _ _ _ h _ := h

theorem TypeAgrees.refl {Q : Bool → Val → Prop} (t : TypeOps) : TypeAgrees Q t t where
  isMarshaler := rfl
  isPackable := rfl
  fixedBits := rfl
  dflt := rfl
  createContext := rfl
  write _ _ _ _ _ := rfl
  bitsize _ _ _ _ _ := rfl
  read _ _ _ _ _ _ h _ := h
  initContext _ _ _ _ := rfl
  writePacked _ _ _ _ _ := rfl
  bitsizePacked _ _ _ _ _ := rfl
  readPacked _ _ _ _ _ _ _ h _ := h
  trait _ := .refl _

theorem CodecAgrees.ops {Q : Bool → Val → Prop} {c c' : Codec} (h : CodecAgrees Q c c') :
    TypeAgrees Q c.ops c'.ops where
  isMarshaler := rfl
  isPackable := rfl
  fixedBits := rfl
  dflt := h.dflt
  createContext := h.createContext
  write b _ x w hx := h.write b x w hx
  bitsize b _ x p hx := congrArg Res.unwrap (h.bitsize b x p hx)
  read b _ ps r x r' hr hx := h.read b ps r x r' hr hx
  initContext _ x n hx := h.initContext x n hx
  writePacked _ x n w hx := h.writePacked x n w hx
  bitsizePacked _ x n p hx := congrArg Res.unwrap (h.bitsizePacked x n p hx)
  readPacked _ ps n r x n' r' hr hx := h.readPacked ps n r x n' r' hr hx
  trait _ :=
    { constant := rfl
      createContext := h.createContext
      write := fun b x w hx => h.write b x w hx
      bitsize := fun b x p hx => h.bitsize b x p hx
      read := fun b ps r x r' hr hx => h.read b ps r x r' hr hx
      initContext := fun x n hx => h.initContext x n hx
      writePacked := fun x n w hx => h.writePacked x n w hx
      bitsizePacked := fun x n p hx => h.bitsizePacked x n p hx
      readPacked := fun ps n r x n' r' hr hx => h.readPacked ps n r x n' r' hr hx }

theorem bind_congr' {α β : Type} {R : Res α} {f g : α → Res β} (h : ∀ x, f x = g x) :
    (R >>= f) = (R >>= g) := by cases R <;> first | rfl | exact h _

theorem withParams_params (v : Val) : v.withParams v.params = v := by cases v <;> rfl

theorem push_items' (m : Nat) (v : Vec Val) (x : Val) : (v.push m x).items = v.items ++ [x] := by
  unfold Vec.push Vec.reserve
  split <;> rfl

theorem checkArgsAll_agree {info : FieldInfo} {t t' : TypeOps} {env : Env} : ∀ (xs : List Val) (i : Nat),
    FieldOps.checkArgsAll ⟨info, t'⟩ env i xs = FieldOps.checkArgsAll ⟨info, t⟩ env i xs
  | [], _ => rfl
  | x :: xs, i => by
    simp only [FieldOps.checkArgsAll]
    exact bind_congr' fun _ => checkArgsAll_agree xs (i + 1)

/-! ## Arrays -/

section Arrays

variable {Q : Bool → Val → Prop} {d : Val} {t t' : ArrayTrait Val} (h : TraitAgrees Q d t t')

include h

theorem initAll_agree : ∀ {xs : List Val} (n : Node), (∀ x ∈ xs, Q true x) →
    ArrayDef.initAll t' n xs = ArrayDef.initAll t n xs
  | [], _, _ => rfl
  | x :: xs, n, hx => by
    simp only [ArrayDef.initAll]
    rw [h.initContext x n (hx x (List.mem_cons_self ..))]
    exact bind_congr' fun n => initAll_agree n fun x hm => hx x (List.mem_cons_of_mem _ hm)

theorem writePackedAll_agree {o : Bool} : ∀ {xs : List Val} (n : Node) (w : Writer), (∀ x ∈ xs, Q true x) →
    ArrayDef.writePackedAll t' o n w xs = ArrayDef.writePackedAll t o n w xs
  | [], _, _, _ => rfl
  | x :: xs, n, w, hx => by
    simp only [ArrayDef.writePackedAll]
    refine bind_congr' fun w => ?_
    rw [h.writePacked x n w (hx x (List.mem_cons_self ..))]
    exact bind_congr' fun y => writePackedAll_agree y.2 y.1 fun x hm => hx x (List.mem_cons_of_mem _ hm)

theorem writeAll_agree {o b : Bool} : ∀ {xs : List Val} (w : Writer), (∀ x ∈ xs, Q b x) →
    ArrayDef.writeAll t' o w xs = ArrayDef.writeAll t o w xs
  | [], _, _ => rfl
  | x :: xs, w, hx => by
    simp only [ArrayDef.writeAll]
    refine bind_congr' fun w => ?_
    rw [h.write b x w (hx x (List.mem_cons_self ..))]
    exact bind_congr' fun w => writeAll_agree w fun x hm => hx x (List.mem_cons_of_mem _ hm)

theorem bitsizePackedAll_agree {o : Bool} : ∀ {xs : List Val} (n : Node) (p : Nat), (∀ x ∈ xs, Q true x) →
    ArrayDef.bitsizePackedAll t' o n p xs = ArrayDef.bitsizePackedAll t o n p xs
  | [], _, _, _ => rfl
  | x :: xs, n, w, hx => by
    simp only [ArrayDef.bitsizePackedAll]
    refine bind_congr' fun w => ?_
    rw [h.bitsizePacked x n w (hx x (List.mem_cons_self ..))]
    exact bind_congr' fun y => bitsizePackedAll_agree y.2 _ fun x hm => hx x (List.mem_cons_of_mem _ hm)

theorem bitsizeAll_agree {o b : Bool} : ∀ {xs : List Val} (p : Nat), (∀ x ∈ xs, Q b x) →
    ArrayDef.bitsizeAll t' o p xs = ArrayDef.bitsizeAll t o p xs
  | [], _, _ => rfl
  | x :: xs, w, hx => by
    simp only [ArrayDef.bitsizeAll]
    refine bind_congr' fun w => ?_
    rw [h.bitsize b x w (hx x (List.mem_cons_self ..))]
    exact bind_congr' fun w => bitsizeAll_agree _ fun x hm => hx x (List.mem_cons_of_mem _ hm)

theorem zserioWrite_agree {p b : Bool} {fs : Option Nat} {xs : List Val} {o : Bool} (w : Writer)
    (hb : p = true → b = true) (hx : ∀ x ∈ xs, Q b x) :
    ArrayDef.zserioWrite ⟨t', p, fs⟩ w xs o = ArrayDef.zserioWrite ⟨t, p, fs⟩ w xs o := by
  unfold ArrayDef.zserioWrite
  refine bind_congr' fun w => ?_
  unfold ArrayDef.writeElements
  cases p with
  | false => simp only [Bool.false_eq_true, if_false]; rw [writeAll_agree h w hx]
  | true =>
    rw [hb rfl] at hx
    simp only [if_true]
    rw [h.createContext, initAll_agree h _ hx]
    refine congrArg (fun a => if xs.isEmpty = true then _ else a) ?_
    exact bind_congr' fun n => writePackedAll_agree h n w hx

theorem zserioBitsize_agree {p b : Bool} {fs : Option Nat} {xs : List Val} {o : Bool} (pos : Nat)
    (hb : p = true → b = true) (hx : ∀ x ∈ xs, Q b x) :
    ArrayDef.zserioBitsize ⟨t', p, fs⟩ xs o pos = ArrayDef.zserioBitsize ⟨t, p, fs⟩ xs o pos := by
  unfold ArrayDef.zserioBitsize
  refine bind_congr' fun pos => ?_
  refine congrArg (fun a : Res Nat => a >>= _) ?_
  cases xs with
  | nil => rfl
  | cons x xs =>
    unfold ArrayDef.bitsizeElements
    cases p with
    | false =>
      simp only [Bool.false_eq_true, if_false]
      rw [h.constant, bitsizeAll_agree h pos hx, h.bitsize b x pos (hx x (List.mem_cons_self ..))]
    | true =>
      rw [hb rfl] at hx
      simp only [if_true]
      rw [h.createContext, initAll_agree h _ hx]
      exact bind_congr' fun n => bitsizePackedAll_agree h n pos hx

omit h in
theorem readAll_prefix {m : Nat} {o : Bool} : ∀ {k : Nat} {v : Vec Val} {r : Reader} {out : Vec Val}
    {r' : Reader}, ArrayDef.readAll t m o d k v r = .ok (out, r') → ∀ x ∈ v.items, x ∈ out.items
  | 0, v, r, out, r', hr => by
    simp only [ArrayDef.readAll, Res.pure_eq, Res.ok.injEq, Prod.mk.injEq] at hr
    exact fun x hx => hr.1 ▸ hx
  | k + 1, v, r, out, r', hr => by
    simp only [ArrayDef.readAll, Res.bind_eq_ok] at hr
    obtain ⟨r1, -, y, -, hr⟩ := hr
    exact fun x hx => readAll_prefix hr x (by rw [push_items']; exact List.mem_append_left _ hx)

omit h in
theorem readPackedAll_prefix {m : Nat} {o : Bool} : ∀ {k : Nat} {n : Node} {v : Vec Val} {r : Reader}
    {out : Vec Val} {r' : Reader}, ArrayDef.readPackedAll t m o d k n v r = .ok (out, r') →
    ∀ x ∈ v.items, x ∈ out.items
  | 0, n, v, r, out, r', hr => by
    simp only [ArrayDef.readPackedAll, Res.pure_eq, Res.ok.injEq, Prod.mk.injEq] at hr
    exact fun x hx => hr.1 ▸ hx
  | k + 1, n, v, r, out, r', hr => by
    simp only [ArrayDef.readPackedAll, Res.bind_eq_ok] at hr
    obtain ⟨r1, -, y, -, hr⟩ := hr
    exact fun x hx => readPackedAll_prefix hr x (by rw [push_items']; exact List.mem_append_left _ hx)

theorem readAll_agree {m : Nat} {o b : Bool} : ∀ {k : Nat} {v : Vec Val} {r : Reader} {out : Vec Val}
    {r' : Reader}, ArrayDef.readAll t m o d k v r = .ok (out, r') → (∀ x ∈ out.items, Q b x) →
    ArrayDef.readAll t' m o d k v r = .ok (out, r')
  | 0, _, _, _, _, hr, _ => hr
  | k + 1, v, r, out, r', hr, hx => by
    simp only [ArrayDef.readAll, Res.bind_eq_ok] at hr ⊢
    obtain ⟨r1, h1, y, h2, hr⟩ := hr
    refine ⟨r1, h1, y, ?_, readAll_agree hr hx⟩
    have := h.read b d.params r1 y.1 y.2
    rw [withParams_params] at this
    exact this h2 (hx _ (readAll_prefix hr _ (by rw [push_items']; exact List.mem_append_right _ (List.mem_singleton.2 rfl))))

theorem readPackedAll_agree {m : Nat} {o : Bool} : ∀ {k : Nat} {n : Node} {v : Vec Val} {r : Reader}
    {out : Vec Val} {r' : Reader}, ArrayDef.readPackedAll t m o d k n v r = .ok (out, r') →
    (∀ x ∈ out.items, Q true x) → ArrayDef.readPackedAll t' m o d k n v r = .ok (out, r')
  | 0, _, _, _, _, _, hr, _ => hr
  | k + 1, n, v, r, out, r', hr, hx => by
    simp only [ArrayDef.readPackedAll, Res.bind_eq_ok] at hr ⊢
    obtain ⟨r1, h1, y, h2, hr⟩ := hr
    refine ⟨r1, h1, y, ?_, readPackedAll_agree hr hx⟩
    have := h.readPacked d.params n r1 y.1.1 y.1.2 y.2
    rw [withParams_params] at this
    exact this h2 (hx _ (readPackedAll_prefix hr _ (by rw [push_items']; exact List.mem_append_right _ (List.mem_singleton.2 rfl))))

theorem zserioRead_agree {p b : Bool} {fs : Option Nat} {o : Bool} {m c : Nat} {r : Reader} {v : Vec Val}
    {len : Nat} {out : Vec Val} {r' : Reader} (hb : p = true → b = true)
    (hr : ArrayDef.zserioRead ⟨t, p, fs⟩ m c d r v len o = .ok (out, r')) (hx : ∀ x ∈ out.items, Q b x) :
    ArrayDef.zserioRead ⟨t', p, fs⟩ m c d r v len o = .ok (out, r') := by
  unfold ArrayDef.zserioRead at hr ⊢
  cases p with
  | false =>
    simp only [Bool.false_eq_true, if_false] at hr ⊢
    exact readAll_agree h hr hx
  | true =>
    rw [hb rfl] at hx
    simp only [if_true] at hr ⊢
    rw [h.createContext]
    exact readPackedAll_agree h hr hx

theorem readOneElement_agree {p b : Bool} {fs : Option Nat} {o : Bool} {r : Reader} {n : Node} {ps : List Val}
    {x : Val} {n' : Node} {r' : Reader} (hb : p = true → b = true)
    (hr : ArrayDef.readOneElement ⟨t, p, fs⟩ r n (d.withParams ps) o = .ok ((x, n'), r')) (hx : Q b x) :
    ArrayDef.readOneElement ⟨t', p, fs⟩ r n (d.withParams ps) o = .ok ((x, n'), r') := by
  unfold ArrayDef.readOneElement at hr ⊢
  simp only [Res.bind_eq_ok] at hr ⊢
  obtain ⟨r1, h1, hr⟩ := hr
  refine ⟨r1, h1, ?_⟩
  cases p with
  | false =>
    simp only [Bool.false_eq_true, if_false, Res.bind_eq_ok, Res.pure_eq, Res.ok.injEq, Prod.mk.injEq] at hr ⊢
    obtain ⟨y, h2, ⟨rfl, h3⟩, rfl⟩ := hr
    exact ⟨y, h.read b ps r1 y.1 y.2 h2 hx, ⟨rfl, h3⟩, rfl⟩
  | true =>
    rw [hb rfl] at hx
    simp only [if_true] at hr ⊢
    exact h.readPacked ps n r1 x n' r' hr hx

end Arrays

/-! ## Fields -/

/-- `x` is the value of the field or an element of its array. -/
def Contains (info : FieldInfo) (v x : Val) : Prop :=
  ∃ y, (if info.optional then v = .some y else v = y) ∧
    (if info.array.isSome then ∃ xs, y = .list xs ∧ x ∈ xs else x = y)

/-- The functions with packing contexts are called for what is in the field. -/
def flag (info : FieldInfo) (packed : Bool) : Bool := packed || info.array.any ArrayInfo.isPacked

/-- What is in the field, if it is there, is in `Q`. -/
def Within (Q : Bool → Val → Prop) (info : FieldInfo) (packed : Bool) (env : Env) (v : Val) : Prop :=
  (∀ c, info.clause = some c → c env = true) → ∀ x, Contains info v x → Q (flag info packed) x

theorem present_iff {f : FieldOps} {env : Env} (h : f.present env = true) :
    ∀ c, f.info.clause = some c → c env = true := by
  intro c hc
  unfold FieldOps.present at h
  rw [hc] at h
  exact h

section Field

variable {Q : Bool → Val → Prop} {info : FieldInfo} {t t' : TypeOps} (h : TypeAgrees Q t t')

include h

theorem isPackable_agree : FieldOps.isPackable ⟨info, t'⟩ = FieldOps.isPackable ⟨info, t⟩ := by
  unfold FieldOps.isPackable
  simp only [h.isPackable]

theorem dflt_agree : FieldOps.dflt ⟨info, t'⟩ = FieldOps.dflt ⟨info, t⟩ := by
  unfold FieldOps.dflt
  simp only [h.dflt]

theorem createContext_agree : FieldOps.createContext ⟨info, t'⟩ = FieldOps.createContext ⟨info, t⟩ := by
  unfold FieldOps.createContext
  simp only [h.createContext, h.isMarshaler, isPackable_agree h]

omit h in
theorem flag_packed {packed b : Bool} (hb : packed = true → b = true) {a : ArrayInfo}
    (ha : info.array = some a) {c : Bool} (hp : ((a.isPacked || packed) && c) = true) :
    flag info b = true := by
  unfold flag
  rw [ha]
  simp only [Bool.and_eq_true, Bool.or_eq_true] at hp
  simp only [Option.any_some, Bool.or_eq_true]
  exact hp.1.symm.imp hb id

theorem encodeContent_agree {packed b : Bool} (hb : packed = true → b = true) {i : Nat} {env : Env} {y : Val} {n : Node} {w : Writer}
    (hx : ∀ x, (if info.array.isSome then ∃ xs, y = .list xs ∧ x ∈ xs else x = y) → Q (flag info b) x) :
    FieldOps.encodeContent ⟨info, t'⟩ packed i env y n w = FieldOps.encodeContent ⟨info, t⟩ packed i env y n w := by
  unfold FieldOps.encodeContent
  cases ha : info.array with
  | none =>
    rw [ha] at hx
    have hx := hx y (by simp)
    simp only [ha]
    refine bind_congr' fun _ => ?_
    unfold FieldOps.encodeType
    rw [isPackable_agree h]
    split
    · rename_i hp
      have : packed = true := by simp only [Bool.and_eq_true] at hp; exact hp.1
      rw [show flag info b = true by simp [flag, hb this]] at hx
      simp only [h.writePacked env y _ w hx]
    · simp only [h.write _ env y w hx]
  | some a =>
    simp only [ha]
    cases y with
    | list xs =>
      simp only [checkArgsAll_agree (t := t) (t' := t')]
      refine bind_congr' fun _ => bind_congr' fun _ => ?_
      refine congrArg (fun a : Res Writer => a >>= _) ?_
      unfold FieldOps.arrayDef
      rw [isPackable_agree h]
      refine zserioWrite_agree (h.trait env) w (fun hp => flag_packed hb ha hp) fun x hm => hx x ?_
      rw [ha]
      exact ⟨xs, rfl, hm⟩
    | _ => rfl

theorem encode_agree {packed b : Bool} (hb : packed = true → b = true) {i : Nat} {env : Env} {v : Val} {n : Node} {w : Writer}
    (hx : Within Q info b env v) :
    FieldOps.encode ⟨info, t'⟩ packed i env v n w = FieldOps.encode ⟨info, t⟩ packed i env v n w := by
  unfold FieldOps.encode
  show (if FieldOps.present ⟨info, t⟩ env = true then _ else _) = _
  split
  · rename_i hp
    have hx := hx (present_iff hp)
    refine bind_congr' fun w => ?_
    unfold FieldOps.encodeOptional
    show (if info.optional = true then _ else _) = (if info.optional = true then _ else _)
    split
    · rename_i ho
      cases v with
      | some y =>
        refine bind_congr' fun w => encodeContent_agree h hb fun x hc => hx x ⟨y, ?_, hc⟩
        rw [if_pos ho]
      | _ => rfl
    · rename_i ho
      refine encodeContent_agree h hb fun x hc => hx x ⟨v, ?_, hc⟩
      rw [if_neg ho]
  · rfl

theorem bitsizeContent_agree {packed b : Bool} (hb : packed = true → b = true) {i : Nat} {env : Env} {y : Val} {n : Node} {w : Nat}
    (hx : ∀ x, (if info.array.isSome then ∃ xs, y = .list xs ∧ x ∈ xs else x = y) → Q (flag info b) x) :
    FieldOps.bitsizeContent ⟨info, t'⟩ packed i env y n w = FieldOps.bitsizeContent ⟨info, t⟩ packed i env y n w := by
  unfold FieldOps.bitsizeContent
  cases ha : info.array with
  | none =>
    rw [ha] at hx
    have hx := hx y (by simp)
    simp only [ha]
    unfold FieldOps.bitsizeType
    rw [isPackable_agree h, h.fixedBits]
    split
    · rename_i hp
      have : packed = true := by simp only [Bool.and_eq_true] at hp; exact hp.1
      rw [show flag info b = true by simp [flag, hb this]] at hx
      simp only [h.bitsizePacked env y _ w hx]
    · simp only [h.bitsize _ env y w hx]
  | some a =>
    simp only [ha]
    cases y with
    | list xs =>
      refine congrArg (fun a : Res Nat => a >>= _) ?_
      unfold FieldOps.arrayDef
      rw [isPackable_agree h]
      refine zserioBitsize_agree (h.trait env) w (fun hp => flag_packed hb ha hp) fun x hm => hx x ?_
      rw [ha]
      exact ⟨xs, rfl, hm⟩
    | _ => rfl

theorem bitsize_agree {packed b : Bool} (hb : packed = true → b = true) {i : Nat} {env : Env} {v : Val} {n : Node} {w : Nat}
    (hx : Within Q info b env v) :
    FieldOps.bitsize ⟨info, t'⟩ packed i env v n w = FieldOps.bitsize ⟨info, t⟩ packed i env v n w := by
  unfold FieldOps.bitsize
  show (if FieldOps.present ⟨info, t⟩ env = true then _ else _) = _
  split
  · rename_i hp
    have hx := hx (present_iff hp)
    refine bind_congr' fun w => ?_
    unfold FieldOps.bitsizeOptional
    show (if info.optional = true then _ else _) = (if info.optional = true then _ else _)
    split
    · rename_i ho
      cases v with
      | some y =>
        refine bitsizeContent_agree h hb fun x hc => hx x ⟨y, ?_, hc⟩
        rw [if_pos ho]
      | _ => rfl
    · rename_i ho
      refine bitsizeContent_agree h hb fun x hc => hx x ⟨v, ?_, hc⟩
      rw [if_neg ho]
  · rfl

theorem initContext_agree {i : Nat} {env : Env} {v : Val} {n : Node} (hx : Within Q info true env v) :
    FieldOps.initContext ⟨info, t'⟩ i env v n = FieldOps.initContext ⟨info, t⟩ i env v n := by
  unfold FieldOps.initContext
  show (if info.array.isSome = true then _ else _) = (if info.array.isSome = true then _ else _)
  split
  · rfl
  · rename_i ha
    rw [isPackable_agree h, h.isMarshaler]
    split
    · rfl
    · show (if FieldOps.present ⟨info, t⟩ env = true then _ else _) = _
      split
      · rename_i hp
        have hx := hx (present_iff hp)
        have key : ∀ y, Contains info v y →
            FieldOps.initContent ⟨info, t'⟩ i env y n = FieldOps.initContent ⟨info, t⟩ i env y n := by
          intro y hy
          unfold FieldOps.initContent
          have := hx y hy
          rw [show flag info true = true from rfl] at this
          simp only [h.initContext env y _ this]
        show (if info.optional = true then _ else _) = (if info.optional = true then _ else _)
        split
        · rename_i ho
          cases v with
          | some y => exact key y ⟨y, by rw [if_pos ho], by rw [if_neg ha]⟩
          | _ => rfl
        · rename_i ho
          exact key v ⟨v, by rw [if_neg ho], by rw [if_neg ha]⟩
      · rfl

theorem initial_agree {env : Env} {k : Nat} :
    FieldOps.initial ⟨info, t'⟩ env k = FieldOps.initial ⟨info, t⟩ env k := by
  unfold FieldOps.initial
  rw [h.dflt]
  rfl

omit h in
theorem initial_withParams {env : Env} {k : Nat} :
    ∃ ps, FieldOps.initial ⟨info, t⟩ env k = t.dflt.withParams ps := by
  unfold FieldOps.initial
  split
  · exact ⟨_, (withParams_params _).symm⟩
  · exact ⟨_, rfl⟩

omit h in
theorem readParamAll_prefix {cfg : Cfg} {f : FieldOps} {a : ArrayDef Val} {env : Env} : ∀ {k index : Nat}
    {n : Node} {v : Vec Val} {r : Reader} {out : Vec Val} {r' : Reader},
    f.readParamAll cfg a env k index n v r = .ok (out, r') → ∀ x ∈ v.items, x ∈ out.items
  | 0, _, n, v, r, out, r', hr => by
    simp only [FieldOps.readParamAll, Res.pure_eq, Res.ok.injEq, Prod.mk.injEq] at hr
    exact fun x hx => hr.1 ▸ hx
  | k + 1, _, n, v, r, out, r', hr => by
    simp only [FieldOps.readParamAll, Res.bind_eq_ok] at hr
    obtain ⟨y, -, hr⟩ := hr
    exact fun x hx => readParamAll_prefix hr x (by rw [push_items']; exact List.mem_append_left _ hx)

theorem readParamAll_agree {cfg : Cfg} {p b : Bool} {fs : Option Nat} {env env' : Env}
    (hb : p = true → b = true) : ∀ {k index : Nat}
    {n : Node} {v : Vec Val} {r : Reader} {out : Vec Val} {r' : Reader},
    FieldOps.readParamAll cfg ⟨info, t⟩ ⟨t.arrayTrait env', p, fs⟩ env k index n v r = .ok (out, r') →
    (∀ x ∈ out.items, Q b x) →
    FieldOps.readParamAll cfg ⟨info, t'⟩ ⟨t'.arrayTrait env', p, fs⟩ env k index n v r = .ok (out, r')
  | 0, _, n, v, r, out, r', hr, _ => hr
  | k + 1, index, n, v, r, out, r', hr, hx => by
    simp only [FieldOps.readParamAll, Res.bind_eq_ok] at hr ⊢
    obtain ⟨y, h1, hr⟩ := hr
    refine ⟨y, ?_, readParamAll_agree hb hr hx⟩
    rw [initial_agree h]
    obtain ⟨ps, hps⟩ := initial_withParams (info := info) (t := t) (env := env) (k := index)
    rw [hps] at h1 ⊢
    exact readOneElement_agree (h.trait env') hb h1
      (hx _ (readParamAll_prefix hr _ (by rw [push_items']; exact List.mem_append_right _ (List.mem_singleton.2 rfl))))

theorem decodeContent_agree {cfg : Cfg} {packed b : Bool} (hb : packed = true → b = true) {i : Nat} {env : Env} {old y : Val} {n n' : Node}
    {r r' : Reader}
    (hx : ∀ x, (if info.array.isSome then ∃ xs, y = .list xs ∧ x ∈ xs else x = y) → Q (flag info b) x)
    (hr : FieldOps.decodeContent cfg ⟨info, t⟩ packed i env old n r = .ok ((y, n'), r')) :
    FieldOps.decodeContent cfg ⟨info, t'⟩ packed i env old n r = .ok ((y, n'), r') := by
  unfold FieldOps.decodeContent at hr ⊢
  cases ha : info.array with
  | none =>
    rw [ha] at hx
    have hx := hx y (by simp)
    simp only [ha] at hr ⊢
    unfold FieldOps.decodeType at hr ⊢
    rw [isPackable_agree h, initial_agree h]
    obtain ⟨ps, hps⟩ := initial_withParams (info := info) (t := t) (env := env) (k := 0)
    rw [hps] at hr ⊢
    split at hr
    · rename_i hp
      rw [if_pos hp]
      have : packed = true := by simp only [Bool.and_eq_true] at hp; exact hp.1
      rw [show flag info b = true by simp [flag, hb this]] at hx
      cases n with
      | mk cs c =>
        simp only [Node.onChild] at hr ⊢
        cases hc : cs[i]? with
        | none => rw [hc] at hr; cases hr
        | some child =>
          rw [hc] at hr
          simp only [Res.bind_eq_ok, Res.pure_eq, Res.ok.injEq, Prod.mk.injEq] at hr ⊢
          obtain ⟨a, ⟨b, ⟨c', h1, h2⟩, h3⟩, ⟨h4, h5⟩, h6⟩ := hr
          refine ⟨a, ⟨b, ⟨c', ?_, h2⟩, h3⟩, ⟨h4, h5⟩, h6⟩
          refine h.readPacked env ps child r c'.1.1 c'.1.2 c'.2 h1 ?_
          have e1 : c'.1.1 = b.1.1 := by rw [← h2]
          have e2 : b.1 = a.1 := by rw [← h3]
          rw [e1, e2, h4]
          exact hx
    · rename_i hp
      rw [if_neg hp]
      simp only [Res.bind_eq_ok, Res.pure_eq, Res.ok.injEq, Prod.mk.injEq] at hr ⊢
      obtain ⟨a, h1, ⟨h2, h3⟩, h4⟩ := hr
      exact ⟨a, h.read _ env ps r a.1 a.2 h1 (by rw [h2]; exact hx), ⟨h2, h3⟩, h4⟩
  | some a =>
    simp only [ha] at hr ⊢
    cases old with
    | list xs =>
      simp only [Res.bind_eq_ok, Res.pure_eq, Res.ok.injEq, Prod.mk.injEq] at hr ⊢
      obtain ⟨z, h1, ⟨h2, h3⟩, h4⟩ := hr
      refine ⟨z, ?_, ⟨h2, h3⟩, h4⟩
      unfold FieldOps.decodeArray at h1 ⊢
      unfold FieldOps.arrayDef at h1 ⊢
      rw [isPackable_agree h]
      simp only [Res.bind_eq_ok] at h1 ⊢
      obtain ⟨l, h5, h1⟩ := h1
      refine ⟨l, h5, ?_⟩
      have hQ : ∀ out : Vec Val, Val.list out.items = z.1 → ∀ x ∈ out.items, Q (flag info b) x := by
        intro out ho x hm
        refine hx x ?_
        rw [ha]
        exact ⟨out.items, by rw [← h2, ho], hm⟩
      split at h1
      · rename_i he
        rw [if_pos he]
        simp only [Res.bind_eq_ok, Res.pure_eq, Res.ok.injEq] at h1 ⊢
        obtain ⟨out, h6, h7⟩ := h1
        refine ⟨out, ?_, h7⟩
        rw [h.dflt]
        exact zserioRead_agree (h.trait env) (fun hp => flag_packed hb ha hp) h6 (hQ out.1 (by rw [← h7]))
      · rename_i he
        rw [if_neg he]
        simp only [Res.bind_eq_ok, Res.pure_eq, Res.ok.injEq] at h1 ⊢
        obtain ⟨out, h6, h7⟩ := h1
        refine ⟨out, ?_, h7⟩
        rw [(h.trait env).createContext]
        exact readParamAll_agree h (fun hp => flag_packed hb ha hp) h6 (hQ out.1 (by rw [← h7]))
    | _ => cases hr

theorem decode_agree {cfg : Cfg} {packed b : Bool} (hb : packed = true → b = true) {i : Nat} {env : Env} {old v : Val} {n n' : Node}
    {r r' : Reader} (hx : Within Q info b env v)
    (hr : FieldOps.decode cfg ⟨info, t⟩ packed i env old n r = .ok ((v, n'), r')) :
    FieldOps.decode cfg ⟨info, t'⟩ packed i env old n r = .ok ((v, n'), r') := by
  unfold FieldOps.decode at hr ⊢
  show (if FieldOps.present ⟨info, t⟩ env = true then _ else _) = _
  split at hr
  · rename_i hp
    rw [if_pos hp]
    have hx := hx (present_iff hp)
    simp only [Res.bind_eq_ok] at hr ⊢
    obtain ⟨r1, h1, hr⟩ := hr
    refine ⟨r1, h1, ?_⟩
    unfold FieldOps.decodeOptional at hr ⊢
    change (if info.optional = true then _ else _) = _ at hr
    show (if info.optional = true then _ else _) = _
    split at hr
    · rename_i ho
      rw [if_pos ho]
      simp only [Res.bind_eq_ok] at hr ⊢
      obtain ⟨z, h2, hr⟩ := hr
      refine ⟨z, h2, ?_⟩
      split at hr
      · rename_i hz
        rw [if_pos hz]
        simp only [Res.bind_eq_ok, Res.pure_eq, Res.ok.injEq, Prod.mk.injEq] at hr ⊢
        obtain ⟨y, h3, ⟨h4, h5⟩, h6⟩ := hr
        refine ⟨y, ?_, ⟨h4, h5⟩, h6⟩
        have : FieldOps.contentDflt ⟨info, t'⟩ = FieldOps.contentDflt ⟨info, t⟩ := by
          unfold FieldOps.contentDflt
          rw [h.dflt]
        rw [this]
        refine decodeContent_agree h hb (fun x hc => hx x ⟨y.1.1, ?_, hc⟩) h3
        rw [if_pos ho, h4]
      · rename_i hz
        rw [if_neg hz]
        exact hr
    · rename_i ho
      rw [if_neg ho]
      refine decodeContent_agree h hb (fun x hc => hx x ⟨v, ?_, hc⟩) hr
      rw [if_neg ho]
  · rename_i hp
    rw [if_neg hp]
    exact hr

end Field

end Link

end Zs
