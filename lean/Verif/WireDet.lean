import Verif.Wire

/-!
# The layout determines the bits
-/

namespace Zs

open Spec

/-- There is one way at most to lay out something. -/
def Spec.Layout.Determined (l : Layout) : Prop := ∀ before pos x a y b,
  l before pos x a → l before pos y b → x = y ∧ a = b

namespace Spec

theorem FewestBytes.unique {cap : Nat → Nat} {x m n : Nat} (hm : FewestBytes cap x m)
    (hn : FewestBytes cap x n) : m = n := by
  obtain ⟨m1, m2, m3⟩ := hm
  obtain ⟨n1, n2, n3⟩ := hn
  by_cases h : m < n
  · have := n3 m m1 h; omega
  · by_cases h' : n < m
    · have := m3 n n1 h'; omega
    · omega

theorem IsVaruint.unique {m : Nat} {v : Int} {x y : List Bool} (hx : IsVaruint m v x)
    (hy : IsVaruint m v y) : x = y := by
  obtain ⟨_, n, _, f, rfl⟩ := hx
  obtain ⟨_, n', _, f', rfl⟩ := hy
  rw [f.unique f']

theorem IsVarint.unique {m : Nat} {v : Int} {x y : List Bool} (hx : IsVarint m v x)
    (hy : IsVarint m v y) : x = y := by
  obtain ⟨n, _, f, rfl⟩ := hx
  obtain ⟨n', _, f', rfl⟩ := hy
  rw [f.unique f']

namespace Layout

theorem never_determined : never.Determined := fun _ _ _ _ _ _ h => h.elim

theorem some_determined {p : List Bool → Prop} (h : ∀ x y, p x → p y → x = y) :
    (some p).Determined := by
  intro before pos x a y b ⟨h1, h2⟩ ⟨h3, h4⟩
  exact ⟨h x y h1 h3, by rw [h2, h4]⟩

theorem bits_determined {bs : List Bool} : (bits bs).Determined :=
  some_determined (fun _ _ h h' => by rw [h, h'])

theorem empty_determined : empty.Determined := bits_determined

theorem seq_determined {a b : Layout} (ha : a.Determined) (hb : b.Determined) :
    (seq a b).Determined := by
  intro before pos x u y v ⟨x1, x2, m, ex, h1, h2⟩ ⟨y1, y2, m', ey, h3, h4⟩
  obtain ⟨rfl, rfl⟩ := ha _ _ _ _ _ _ h1 h3
  obtain ⟨rfl, rfl⟩ := hb _ _ _ _ _ _ h2 h4
  exact ⟨by rw [ex, ey], rfl⟩

theorem align_determined {n : Nat} : (align n).Determined := by
  intro before pos x u y v ⟨e1, k, ex, d1, m1⟩ ⟨e2, j, ey, d2, m2⟩
  have h1 := m1 j d2
  have h2 := m2 k d1
  exact ⟨by rw [ex, ey, Nat.le_antisymm h1 h2], by rw [e1, e2]⟩

theorem elements_determined {aligned : Bool} {ls : List Layout} (h : ∀ l ∈ ls, l.Determined) :
    (elements aligned ls).Determined := by
  induction ls with
  | nil => exact empty_determined
  | cons l ls ih =>
    refine seq_determined ?_ (seq_determined (h l (List.mem_cons_self ..))
      (ih (fun k hk => h k (List.mem_cons_of_mem _ hk))))
    cases aligned
    · exact empty_determined
    · exact align_determined

theorem ite_determined {c : Prop} [Decidable c] {a b : Layout} (ha : a.Determined)
    (hb : b.Determined) : (if c then a else b).Determined := by
  split
  · exact ha
  · exact hb

end Layout

end Spec

theorem Scalar.numberWire_unique {env : Env} {s : Scalar} {x : Int} {a b : List Bool}
    (ha : s.NumberWire env x a) (hb : s.NumberWire env x b) : a = b := by
  cases s <;> simp only [Scalar.NumberWire] at ha hb <;>
    first
    | exact ha.elim
    | exact ha.unique hb
    | rw [ha, hb]

theorem Scalar.otherWire_unique {cfg : Cfg} {s : Scalar} {v : Val} {a b : List Bool}
    (ha : s.OtherWire cfg v a) (hb : s.OtherWire cfg v b) : a = b := by
  unfold Scalar.OtherWire at ha hb
  split at ha <;> simp only at hb <;>
    first
    | exact ha.elim
    | rw [ha, hb]
    | (obtain ⟨x, hx, rfl⟩ := ha
       obtain ⟨y, hy, rfl⟩ := hb
       rw [hx.unique hy])

theorem Spec.packedNumber_determined {plan : Option Nat} {plain : List Bool → Prop} {x : Int}
    (h : ∀ a b, plain a → plain b → a = b) : (packedNumber plan plain x).Determined := by
  intro before pos a u b v ⟨e1, h1⟩ ⟨e2, h2⟩
  refine ⟨?_, by rw [e1, e2]⟩
  cases hb : before [] with
  | none =>
    rw [hb] at h1 h2
    obtain ⟨r, hr, rfl⟩ := h1
    obtain ⟨r', hr', rfl⟩ := h2
    rw [h r r' hr hr']
  | some y =>
    rw [hb] at h1 h2
    rcases plan with _ | _ | m
    · exact h _ _ h1 h2
    · exact h1.trans h2.symm
    · exact h1.trans h2.symm

theorem Spec.Layout.inField_determined {i : Nat} {l : Layout} (h : l.Determined) :
    (Layout.inField i l).Determined := by
  intro before pos a u b v ⟨h1, e1⟩ ⟨h2, e2⟩
  obtain ⟨ha, hu⟩ := h _ _ _ _ _ _ h1 h2
  refine ⟨ha, funext fun q => ?_⟩
  by_cases hq : ∃ r, q = i :: r
  · obtain ⟨r, rfl⟩ := hq
    exact congrFun hu r
  · have hq' : ∀ r, q ≠ i :: r := fun r e => hq ⟨r, e⟩
    rw [e1 q hq', e2 q hq']

/-- The packing rule leaves no choice. -/
def Spec.Packing.Decides (packing : Packing) : Prop :=
  ∀ stored counted p p', packing stored counted p → packing stored counted p' → p = p'

theorem Spec.Sizes.unique : ∀ {col : List Entry} {a b : List Nat}, Sizes col a → Sizes col b → a = b
  | [], _, _, ha, hb => by
    simp only [Sizes] at ha hb
    rw [ha, hb]
  | e :: es, _, _, ⟨x, r, h1, h2, e1⟩, ⟨y, r', h3, h4, e2⟩ => by
    rw [e1, e2, Scalar.numberWire_unique h1 h3, Sizes.unique h2 h4]

theorem Spec.exactPacking_decides : exactPacking.Decides := by
  intro stored counted p p' ⟨s, hs, hb⟩ ⟨s', hs', hb'⟩
  have := hs.unique hs'
  subst this
  cases p with
  | some m => exact ((hb' m).2 ((hb m).1 rfl)).symm
  | none =>
    cases p' with
    | none => rfl
    | some m => exact (hb m).2 ((hb' m).1 rfl)

theorem Scalar.wire_determined (cfg : Cfg) (s : Scalar) (pack : Option Plan) (env : Env) (v : Val) :
    (s.Wire cfg pack env v).Determined := by
  unfold Scalar.Wire
  cases v.number with
  | none => cases pack <;> exact Layout.some_determined (fun _ _ => Scalar.otherWire_unique)
  | some x =>
    cases pack with
    | none => exact Layout.some_determined (fun _ _ => Scalar.numberWire_unique)
    | some plan => exact packedNumber_determined (fun _ _ => Scalar.numberWire_unique)

theorem FieldInfo.content_determined {info : FieldInfo} {packing : Packing} {delta : Bool}
    {one : Option Plan → Env → Val → Layout} {numbers : Bool → Env → Val → List Nat → List Entry}
    {pack : Option Plan} (hp : packing.Decides ∨
      (¬ info.array.any (fun a => a.isPacked && !info.isOffsetField) ∧ pack = none))
    (h1 : ∀ p env v, packing.Decides ∨ p = none → (one p env v).Determined) (i : Nat) (env : Env)
    (v : Val) : (info.ContentWire packing delta one numbers pack i env v).Determined := by
  unfold FieldInfo.ContentWire
  cases ha : info.array with
  | none =>
    cases pack with
    | none => exact h1 none env v (.inr rfl)
    | some plan =>
      have hd : packing.Decides := by
        rcases hp with hp | ⟨_, hp⟩
        · exact hp
        · cases hp
      cases delta with
      | false => exact h1 none env v (.inr rfl)
      | true => exact Layout.inField_determined (h1 _ env v (.inl hd))
  | some a =>
    cases v with
    | list xs =>
      simp only
      refine Layout.seq_determined (Layout.ite_determined
        (Layout.some_determined (fun _ _ => IsVaruint.unique)) Layout.empty_determined) ?_
      split
      · rename_i hpk
        have hd : packing.Decides := by
          rcases hp with hp | ⟨hp, hn⟩
          · exact hp
          · subst hn
            simp only [ha, Option.any_some] at hp
            simp only [Option.isSome_none, Bool.or_false] at hpk
            exact absurd hpk hp
        intro before pos x u y v ⟨e1, p, l, hp1, hl1⟩ ⟨e2, p', l', hp2, hl2⟩
        have hpp : p = p' := funext fun q => hd _ _ _ _ (hp1 q) (hp2 q)
        subst hpp
        refine ⟨(Layout.elements_determined (fun l hl => ?_) _ _ _ _ _ _ hl1 hl2).1, by rw [e1, e2]⟩
        obtain ⟨x, _, rfl⟩ := List.mem_map.1 hl
        exact h1 _ env x (.inl hd)
      · refine Layout.elements_determined (fun l hl => ?_)
        obtain ⟨x, _, rfl⟩ := List.mem_map.1 hl
        exact h1 none env x (.inr rfl)
    | _ => exact Layout.never_determined

theorem FieldInfo.wire_determined {info : FieldInfo} {packing : Packing} {delta : Bool}
    {one : Option Plan → Env → Val → Layout} {numbers : Bool → Env → Val → List Nat → List Entry}
    {pack : Option Plan} (hp : packing.Decides ∨
      (¬ info.array.any (fun a => a.isPacked && !info.isOffsetField) ∧ pack = none))
    (h1 : ∀ p env v, packing.Decides ∨ p = none → (one p env v).Determined) (i : Nat) (env : Env)
    (v : Val) : (info.Wire packing delta one numbers pack i env v).Determined := by
  have hc := FieldInfo.content_determined (delta := delta) (numbers := numbers) hp h1 i env
  unfold FieldInfo.Wire
  refine Layout.ite_determined (Layout.seq_determined (Layout.ite_determined
    Layout.empty_determined Layout.align_determined) (Layout.seq_determined (Layout.ite_determined
    Layout.align_determined Layout.empty_determined) (Layout.ite_determined ?_ (hc v))))
    Layout.empty_determined
  cases v with
  | none => exact Layout.bits_determined
  | some x => exact Layout.seq_determined Layout.bits_determined (hc x)
  | _ => exact Layout.never_determined

mutual
/-- No field of the type, at any depth, is a packed array. -/
def Ty.Unpacked : Ty → Prop
  | .scalar _ | .enum _ _ | .bitmask _ _ => True
  | .struct _ fields | .union _ fields => fields.Unpacked
  | .choice _ _ cases => cases.Unpacked
/-- No field is a packed array. -/
def Fields.Unpacked : Fields → Prop
  | .nil => True
  | .cons info ty rest =>
    (¬ info.array.any (fun a => a.isPacked && !info.isOffsetField)) ∧ ty.Unpacked ∧ rest.Unpacked
/-- No field is a packed array. -/
def Cases.Unpacked : Cases → Prop
  | .nil => True
  | .field _ info ty rest =>
    (¬ info.array.any (fun a => a.isPacked && !info.isOffsetField)) ∧ ty.Unpacked ∧ rest.Unpacked
  | .empty _ rest => rest.Unpacked
end

/-- What makes the layout unique: a rule that leaves no choice, or no packed arrays. -/
def Settled (packing : Packing) (unpacked : Prop) (pack : Option Plan) : Prop :=
  packing.Decides ∨ (unpacked ∧ pack = none)

theorem Settled.mono {packing : Packing} {a b : Prop} {pack : Option Plan} (h : Settled packing a pack)
    (hab : a → b) : Settled packing b pack := h.imp id fun h => ⟨hab h.1, h.2⟩

theorem Settled.one {packing : Packing} {a : Prop} {pack p : Option Plan}
    (h : Settled packing a pack) (hp : packing.Decides ∨ p = none) : Settled packing a p := by
  rcases h with h | ⟨h, _⟩
  · exact .inl h
  · exact hp.imp id fun hp => ⟨h, hp⟩

mutual
theorem Ty.wire_determined (cfg : Cfg) {packing : Packing} : (t : Ty) → ∀ pack,
    Settled packing t.Unpacked pack → ∀ env v, (t.Wire cfg packing pack env v).Determined
  | .scalar s, pack, _, env, v => by
    rw [Ty.Wire]
    exact Scalar.wire_determined cfg s _ env v
  | .enum base items, pack, _, env, v => by
    cases v with
    | item i =>
      simp only [Ty.Wire]
      cases (enumValues items)[i]? with
      | none => exact Layout.never_determined
      | some x =>
        cases pack with
        | none => exact Layout.some_determined (fun _ _ => Scalar.numberWire_unique)
        | some plan =>
          exact Layout.inField_determined (packedNumber_determined fun _ _ => Scalar.numberWire_unique)
    | _ => simp only [Ty.Wire]; exact Layout.never_determined
  | .bitmask base first, pack, _, env, v => by
    cases pack with
    | none => simp only [Ty.Wire]; exact Scalar.wire_determined cfg base _ _ v
    | some plan =>
      simp only [Ty.Wire]
      exact Layout.inField_determined (Scalar.wire_determined cfg base _ _ v)
  | .struct params fields, pack, h, env, v => by
    rw [Ty.Unpacked] at h
    cases v with
    | obj ps vs => rw [Ty.Wire]; exact Fields.wire_determined cfg fields pack h 0 ps [] vs
    | _ => simp only [Ty.Wire]; exact Layout.never_determined
  | .choice params sel cases, pack, h, env, v => by
    rw [Ty.Unpacked] at h
    cases v with
    | obj ps vs => rw [Ty.Wire]; exact Cases.wire_determined cfg cases pack h 0 ps _ vs
    | _ => simp only [Ty.Wire]; exact Layout.never_determined
  | .union params members, pack, h, env, v => by
    rw [Ty.Unpacked] at h
    cases pack with
    | some plan => cases v <;> simp only [Ty.Wire] <;> exact Layout.never_determined
    | none =>
      cases v with
      | union ps sel vs =>
        rw [Ty.Wire]
        exact Layout.seq_determined (Layout.some_determined (fun _ _ => IsVaruint.unique))
          (Fields.member_determined cfg members h ps sel sel vs)
      | _ => simp only [Ty.Wire]; exact Layout.never_determined
theorem Fields.wire_determined (cfg : Cfg) {packing : Packing} : (fs : Fields) → ∀ pack,
    Settled packing fs.Unpacked pack → ∀ i ps done vs,
    (fs.Wire cfg packing pack i ps done vs).Determined
  | .nil, pack, _, i, ps, done, vs => by
    rw [Fields.Wire]
    exact Layout.ite_determined Layout.empty_determined Layout.never_determined
  | .cons info ty rest, pack, h, i, ps, done, vs => by
    rw [Fields.Unpacked] at h
    cases vs with
    | nil => rw [Fields.Wire]; exact Layout.never_determined
    | cons v vs =>
      rw [Fields.Wire]
      exact Layout.seq_determined
        (FieldInfo.wire_determined (h.mono And.left)
          (fun p env v hp => Ty.wire_determined cfg ty p ((h.mono fun x => x.2.1).one hp) env v) i _ v)
        (Fields.wire_determined cfg rest pack (h.mono fun x => x.2.2) _ _ _ vs)
theorem Fields.member_determined (cfg : Cfg) {packing : Packing} : (fs : Fields) →
    Settled packing fs.Unpacked none → ∀ ps sel left vs,
    (fs.MemberWire cfg packing ps sel left vs).Determined
  | .nil, _, ps, sel, left, vs => by
    rw [Fields.MemberWire]
    exact Layout.never_determined
  | .cons info ty rest, h, ps, sel, left, vs => by
    rw [Fields.Unpacked] at h
    cases vs with
    | nil => cases left <;> rw [Fields.MemberWire] <;> exact Layout.never_determined
    | cons v vs =>
      cases left with
      | zero =>
        rw [Fields.MemberWire]
        exact FieldInfo.wire_determined (h.mono And.left)
          (fun p env v hp => Ty.wire_determined cfg ty p ((h.mono fun x => x.2.1).one hp) env v) sel _ v
      | succ left =>
        rw [Fields.MemberWire]
        exact Fields.member_determined cfg rest (h.mono fun x => x.2.2) ps sel left vs
theorem Cases.wire_determined (cfg : Cfg) {packing : Packing} : (cs : Cases) → ∀ pack,
    Settled packing cs.Unpacked pack → ∀ i ps sel vs,
    (cs.Wire cfg packing pack i ps sel vs).Determined
  | .nil, pack, _, i, ps, sel, vs => by
    rw [Cases.Wire]
    exact Layout.empty_determined
  | .field labels info ty rest, pack, h, i, ps, sel, vs => by
    rw [Cases.Unpacked] at h
    cases vs with
    | nil => rw [Cases.Wire]; exact Layout.never_determined
    | cons v vs =>
      rw [Cases.Wire]
      exact Layout.ite_determined
        (FieldInfo.wire_determined (h.mono And.left)
          (fun p env v hp => Ty.wire_determined cfg ty p ((h.mono fun x => x.2.1).one hp) env v) i _ v)
        (Cases.wire_determined cfg rest pack (h.mono fun x => x.2.2) _ _ _ vs)
  | .empty labels rest, pack, h, i, ps, sel, vs => by
    rw [Cases.Unpacked] at h
    rw [Cases.Wire]
    exact Layout.ite_determined Layout.empty_determined (Cases.wire_determined cfg rest pack h _ _ _ vs)
end

end Zs
