import Verif.PropsWire

/-!
# Properties of the decisions that a packed array makes

The array is packed column by column.  A column is stored as differences exactly if this takes fewer
bits, and then with the least possible width: the rule `valuePacking`.
-/

namespace Zs

open Spec

namespace Spec

/-- The best way to store the numbers of each column. -/
def valuePacking : Packing := fun stored _ plan =>
  ∃ sizes, Sizes stored sizes ∧ Best (stored.map (·.2)) sizes plan

theorem OneSign.shift {xs : List Int} (h : OneSign xs) :
    ∃ c : Int, ∀ x ∈ xs, x % 2 ^ 64 = x + c := by
  rcases h with h | h
  · exact ⟨0, fun x hx => by have := h x hx; omega⟩
  · exact ⟨2 ^ 64, fun x hx => by have := h x hx; omega⟩

theorem fits_shift {xs : List Int} {f : Int → Int} {c : Int} (h : ∀ x ∈ xs, f x = x + c) (m : Nat) :
    ColumnFits m (xs.map f) ↔ ColumnFits m xs := by
  have e : xs.map f = xs.map (· + c) := List.map_congr_left h
  rw [e]
  constructor
  · intro hf i a b ha hb
    have := hf i (a + c) (b + c) (by simp [ha]) (by simp [hb])
    rwa [show b + c - (a + c) = b - a by omega] at this
  · intro hf i a b ha hb
    simp only [List.getElem?_map, Option.map_eq_some_iff] at ha hb
    obtain ⟨a, ha, rfl⟩ := ha
    obtain ⟨b, hb, rfl⟩ := hb
    have := hf i a b ha hb
    rwa [show b + c - (a + c) = b - a by omega]

theorem bestPacking_allows : bestPacking.Allows := by
  rintro stored counted plan ⟨sizes, hs, hb⟩ rfl ho
  obtain ⟨c, hc⟩ := ho.shift
  refine ⟨sizes, hs, fun m => ?_⟩
  have e := fun k => fits_shift (f := (· % 2 ^ 64)) hc k
  simp only [List.map_map] at e
  rw [hb m]
  simp only [show (fun e : Entry => e.2 % 2 ^ 64) = (fun x : Int => x % 2 ^ 64) ∘ (fun e : Entry => e.2)
    from rfl, e]

end Spec

/-- **C74 (partial)** Of a packed array, a column of numbers without different signs, in which every
number that is counted is stored, is stored in the best way: as differences of the least possible width
if this takes fewer bits, and one by one otherwise.  Missing: columns with different signs, and columns
in which fields of choices that are not selected are counted; see below. -/
theorem C74_best_partial (cfg : Cfg) (t : Ty) (hs : t.Supported cfg) (env : Env) (v : Val)
    (hv : t.Valid cfg env v) (before : List Bool) :
    ∃ bits, (t.ops cfg).write env v ⟨before⟩ = .ok ⟨before ++ bits⟩ ∧
      ∃ last, t.Wire cfg bestPacking none env v (fun _ => none) before.length bits last := by
  obtain ⟨bits, hw, _⟩ := C24_schema_round_trip cfg t hs env v hv before
  obtain ⟨b, e, hl⟩ := (Ty.wireGood cfg bestPacking_allows t).field hs env v hv ⟨before⟩ _
    (fun _ => none) hw
  have : bits = b := List.append_cancel_left e
  subst this
  exact ⟨bits, hw, _, hl⟩

theorem Demo.fits_cons {m : Nat} {a b : Int} {l : List Int} :
    ColumnFits m (a :: b :: l) ↔ (b - a).natAbs < 2 ^ m ∧ ColumnFits m (b :: l) := by
  constructor
  · exact fun h => ⟨h 0 a b rfl rfl, fun i => h (i + 1)⟩
  · rintro ⟨h0, h⟩ i x y hx hy
    cases i with
    | zero =>
      simp only [List.getElem?_cons_zero, Option.some.injEq, Nat.zero_add,
        List.getElem?_cons_succ] at hx hy
      subst hx hy
      exact h0
    | succ i => exact h i x y hx hy

theorem Demo.fits_single {m : Nat} {a : Int} : ColumnFits m [a] := by
  intro i x y hx hy
  simp at hy

/-- See `Verif/SchemaDemo.lean` for the schema; it has packed arrays of numbers and of structures. -/
example (before : List Bool) :
    ∃ bits, (Demo.big.ops Demo.cfg).write ⟨[], []⟩ Demo.bigVal ⟨before⟩ = .ok ⟨before ++ bits⟩ ∧
      ∃ last, Demo.big.Wire Demo.cfg bestPacking none ⟨[], []⟩ Demo.bigVal (fun _ => none)
        before.length bits last :=
  C74_best_partial _ _ (Demo.big_supported _) _ _ (Demo.big_valid _) before

/-- The best way to store the numbers -3, -1, -2: as differences of width 2. -/
example : ∃ sizes, Sizes [(.int 16, -3), (.int 16, -1), (.int 16, -2)] sizes ∧
    Best [-3, -1, -2] sizes (some 2) ∧ OneSign [-3, -1, -2] := by
  refine ⟨[16, 16, 16], ⟨_, _, rfl, ⟨_, _, rfl, ⟨_, _, rfl, rfl, rfl⟩, rfl⟩, by simp [binary]⟩,
    fun m => ⟨?_, ?_⟩, .inr (by simp)⟩
  · rintro h
    cases h
    refine ⟨⟨by simp [Demo.fits_cons, Demo.fits_single], fun k hk => ?_⟩, by decide, by decide⟩
    match k with
    | 0 => simp [Demo.fits_cons] at hk
    | 1 => simp [Demo.fits_cons] at hk
    | k + 2 => omega
  · rintro ⟨⟨h1, h2⟩, _, _⟩
    have := h2 2 (by simp [Demo.fits_cons, Demo.fits_single])
    match m with
    | 0 => simp [Demo.fits_cons] at h1
    | 1 => simp [Demo.fits_cons] at h1
    | 2 => rfl
    | m + 3 => omega

/-- `struct Signed { packed int8 a[]; }` -/
def Demo.signed : Ty := .struct [] (.cons { array := some ⟨true, none⟩ } (.scalar (.int 8)) .nil)

/-- Numbers around zero. -/
def Demo.signedVal : Val := .obj [] [.list [.int (-1), .int 0, .int (-1)]]

def Demo.signedBits : List Bool := binary 8 3 ++ false :: (binary 8 (-1) ++ binary 8 0 ++ binary 8 (-1))

theorem Demo.signed_written : (Demo.signed.ops Demo.cfg).write ⟨[], []⟩ Demo.signedVal ⟨[]⟩ =
    .ok ⟨Demo.signedBits⟩ := by
  decide +kernel

/-- The header of an array of three elements. -/
theorem Demo.three {bits : List Bool} (h : IsVaruint 5 3 bits) : bits = binary 8 3 := by
  refine h.unique ⟨by decide, 1, by decide, ⟨by decide, by decide, fun k h1 h2 => by omega⟩, ?_⟩
  decide +kernel

/-- The sizes of three numbers of 8 bits. -/
theorem Demo.sizes_three {s : Scalar} (hs : s = .int 8 ∨ s = .uint 8) {a b c : Int} {sizes : List Nat}
    (h : Sizes [(s, a), (s, b), (s, c)] sizes) : sizes = [8, 8, 8] := by
  refine h.unique ?_
  rcases hs with rfl | rfl <;>
  exact ⟨_, _, rfl, ⟨_, _, rfl, ⟨_, _, rfl, rfl, rfl⟩, rfl⟩, by simp [binary]⟩

/-- The condition on signs cannot be dropped: numbers close to zero take fewer bits as differences, but
negative and other numbers are far from each other when taken as unsigned 64-bit numbers. -/
theorem C74_sign_violated : ¬ ∀ (cfg : Cfg) (t : Ty), t.Supported cfg → ∀ (env : Env) (v : Val),
    t.Valid cfg env v → ∀ before : List Bool,
    ∃ bits, (t.ops cfg).write env v ⟨before⟩ = .ok ⟨before ++ bits⟩ ∧
      ∃ last, t.Wire cfg (fun stored counted plan => stored = counted →
        valuePacking stored counted plan) none env v
        (fun _ => none) before.length bits last := by
  intro h
  obtain ⟨bits, hw, last, hl⟩ := h Demo.cfg Demo.signed (by
    simp [Demo.signed, Ty.Supported, Fields.Supported, Ty.Packable, Scalar.Narrow,
      Scalar.isPackable, Scalar.WidthOk]) ⟨[], []⟩ Demo.signedVal (by
    simp [Demo.signed, Demo.signedVal, FieldInfo.FieldValid, FieldInfo.contentValid_list,
      FieldInfo.expectedParams, forall_get_cons, LengthFits, Val.params, Scalar.InRange, Ty.default,
      Scalar.dflt]) []
  rw [Demo.signed_written] at hw
  simp only [Res.ok.injEq, Writer.mk.injEq, List.nil_append] at hw
  subst hw
  simp [Demo.signed, Demo.signedVal, Ty.Wire, Fields.Wire, FieldInfo.Wire, FieldInfo.ContentWire,
    Layout.elements, Layout.seq, Layout.empty, Layout.bits, Layout.some, Scalar.Wire,
    Scalar.isPackable, Val.number, Ty.numbers, packedNumber, Scalar.fixed] at hl
  obtain ⟨_, y, e, _, ⟨rfl, rfl⟩, _, y', rfl, _, ⟨rfl, rfl⟩, hd, y, rfl, _, ⟨h3, rfl⟩, rfl, plan,
    hp, _, _, y', rfl, _, ⟨rfl, rfl⟩, b, _, rfl, _, ⟨_, r, _, rfl⟩, _⟩ := hl
  rw [Demo.three h3] at e
  obtain ⟨sizes, hs, hb⟩ := hp []
  simp only [if_true, List.cons_append, List.nil_append] at hs hb
  have := Demo.sizes_three (.inl rfl) hs
  subst this
  have hplan : plan [] = some 1 := by
    refine (hb 1).2 ⟨⟨?_, fun k hk => ?_⟩, by decide, by decide⟩
    · simp [Demo.fits_cons, Demo.fits_single]
    · cases k with
      | zero => simp [Demo.fits_cons] at hk
      | succ k => omega
  rw [hplan] at e
  have := congrArg (fun l : List Bool => l[8]?) e
  revert this
  simp [descriptor, Demo.signedBits, binary]

/-- `choice Pick(uint8 k) on k { case 0: uint8 a; case 1: uint8 b; }` -/
def Demo.pick : Ty := .choice [.nat 0] (fun ps => ps.headD (.nat 0))
  (.field [.nat 0] {} (.scalar (.uint 8)) (.field [.nat 1] {} (.scalar (.uint 8)) .nil))

/-- `struct Picks { packed Item items[]; }` where `struct Item { uint8 k; Pick(k) pick; }` -/
def Demo.picks : Ty := .struct [] (.cons { array := some ⟨true, none⟩ }
  (.struct [] (.cons {} (.scalar (.uint 8))
    (.cons { args := [fun env _ => .nat (num env 0)] } Demo.pick .nil))) .nil)

/-- The same number is stored twice; where it is not selected, the field has its default. -/
def Demo.picksVal : Val := .obj [] [.list [
  .obj [] [.nat 0, .obj [.nat 0] [.nat 200, .nat 0]],
  .obj [] [.nat 1, .obj [.nat 1] [.nat 0, .nat 0]],
  .obj [] [.nat 0, .obj [.nat 0] [.nat 200, .nat 0]]]]

theorem Demo.picks_written : (Demo.picks.ops Demo.cfg).write ⟨[], []⟩ Demo.picksVal ⟨[]⟩ =
    .ok ⟨binary 8 3 ++ (true :: binary 6 1 ++ binary 8 0) ++ (false :: binary 8 200) ++
      binary 2 1 ++ (true :: binary 6 0 ++ binary 8 0) ++ binary 2 (-1) ++ binary 8 200⟩ := by
  decide +kernel

/-- Nor can the condition on choices be dropped: where another case is selected, the default value of
the field is counted although it is not stored. -/
theorem C74_choice_violated : ¬ ∀ (cfg : Cfg) (t : Ty), t.Supported cfg → ∀ (env : Env) (v : Val),
    t.Valid cfg env v → ∀ before : List Bool,
    ∃ bits, (t.ops cfg).write env v ⟨before⟩ = .ok ⟨before ++ bits⟩ ∧
      ∃ last, t.Wire cfg (fun stored counted plan => OneSign (stored.map (·.2)) →
        valuePacking stored counted plan) none env v (fun _ => none) before.length bits last := by
  intro h
  obtain ⟨bits, hw, last, hl⟩ := h Demo.cfg Demo.picks (by
    simp [Demo.picks, Demo.pick, Ty.Supported, Fields.Supported, Ty.Packable, Fields.Packable,
      Cases.Packable, Scalar.Narrow, Scalar.isPackable, Scalar.WidthOk, FieldInfo.isDelta]) ⟨[], []⟩
    Demo.picksVal (by
    simp [Demo.picks, Demo.pick, Demo.picksVal, FieldInfo.FieldValid, FieldInfo.contentValid_list,
      FieldInfo.contentValid_single, FieldInfo.expectedParams, forall_get_cons, LengthFits, Val.params,
      Scalar.InRange, Ty.default, Scalar.dflt, FieldInfo.default, Demo.num]) []
  rw [Demo.picks_written] at hw
  simp only [Res.ok.injEq, Writer.mk.injEq, List.nil_append] at hw
  subst hw
  simp only [Demo.picks, Demo.pick, Demo.picksVal, Ty.Wire, Fields.Wire, FieldInfo.Wire,
    FieldInfo.ContentWire, Layout.seq, Layout.empty, Layout.bits, Layout.some, Option.all_none, if_true] at hl
  obtain ⟨_, y, _, e, ⟨_, y', _, rfl, ⟨rfl, rfl⟩, _, y, _, rfl, ⟨rfl, rfl⟩, hd, y, _, rfl, ⟨h3, rfl⟩, rfl, plan, _,
    hp, hl⟩, _⟩ := hl
  rw [Demo.three h3] at e
  have hpl : plan [1, 0] = some 0 := by
    have hs : ([.obj [] [.nat 0, .obj [.nat 0] [.nat 200, .nat 0]],
        .obj [] [.nat 1, .obj [.nat 1] [.nat 0, .nat 0]],
        .obj [] [.nat 0, .obj [.nat 0] [.nat 200, .nat 0]]] : List Val).flatMap (fun x =>
          (Ty.struct [] (.cons {} (.scalar (.uint 8))
            (.cons { args := [fun env _ => .nat (Demo.num env 0)] } (.choice [.nat 0]
              (fun ps => ps.headD (.nat 0)) (.field [.nat 0] {} (.scalar (.uint 8))
                (.field [.nat 1] {} (.scalar (.uint 8)) .nil))) .nil))).numbers false ⟨[], []⟩ x [1, 0]) =
        [(.uint 8, 200), (.uint 8, 200)] := by
      simp [Ty.numbers, Fields.numbers, Cases.numbers, FieldInfo.numbers, FieldInfo.isDelta,
        Val.number, Scalar.isPackable, Scalar.fixed]
    obtain ⟨sizes, h1, h2⟩ := hp [1, 0] (by rw [hs]; exact .inl (by simp))
    rw [hs] at h1 h2
    have : sizes = [8, 8] := h1.unique ⟨_, _, rfl, ⟨_, _, rfl, rfl, rfl⟩, by simp [binary]⟩
    subst this
    exact (h2 0).2 ⟨⟨by simp [Demo.fits_cons, Demo.fits_single], fun _ _ => Nat.zero_le _⟩,
      by decide, by decide⟩
  simp [Layout.elements, Layout.seq, Layout.empty, Layout.bits, Layout.some, Layout.inField, Scalar.Wire,
    Scalar.isPackable, Val.number, packedNumber, FieldInfo.isDelta,
    Plan.field, descriptor] at hl
  obtain ⟨_, y, rfl, _, ⟨rfl, rfl⟩, b, y, rfl, _, hl, _⟩ := hl
  obtain ⟨_, y, rfl, c, ⟨_, k, rfl, _, ⟨rfl, rfl⟩, _, k, rfl, _, ⟨rfl, rfl⟩, ⟨hk, r, hr, rfl⟩, hc⟩,
    _, y, rfl, _, ⟨rfl, rfl⟩, _, a, rfl, _, ⟨rfl, rfl⟩, ha, _⟩ := hl
  have h1 := hc [1, 0] (by simp)
  simp [Cases.Wire, FieldInfo.Wire, FieldInfo.ContentWire, Layout.seq, Layout.empty, Layout.bits,
    Layout.some, Layout.inField, Ty.Wire, Scalar.Wire, Scalar.isPackable, Val.number, packedNumber,
    FieldInfo.isDelta, Plan.field, hpl, descriptor] at ha
  obtain ⟨_, y1, rfl, _, ⟨rfl, rfl⟩, _, y2, rfl, _, ⟨rfl, rfl⟩, ⟨_, ha⟩, _⟩ := ha
  simp only [h1] at ha
  obtain ⟨r2, _, rfl⟩ := ha
  simp only [Scalar.NumberWire] at hr
  subst hr
  cases hp0 : plan [0] with
  | none =>
    rw [hp0] at e
    have := congrArg (fun l : List Bool => l[8]?) e
    revert this
    simp [binary]
  | some m =>
    rw [hp0] at e
    have := congrArg (fun l : List Bool => l[23]?) e
    revert this
    simp [binary, show List.range 8 = [0, 1, 2, 3, 4, 5, 6, 7] from rfl,
      show List.range 6 = [0, 1, 2, 3, 4, 5] from rfl]

end Zs
