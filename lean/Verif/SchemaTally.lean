import Verif.WireTally

/-!
# What packing contexts count, for all types of a schema
-/

namespace Zs

open Spec

theorem Scalar.ofInt_number {cfg : Cfg} {s : Scalar} {x : Int} (hw : s.WidthOk)
    (hx : s.Contains x) (h63 : x < 2 ^ 63) : (s.ofInt x).number = .some x := by
  have h := (Scalar.ofInt_spec (cfg := cfg) (env := ⟨[], []⟩) hw hx h63).2.1
  have hn : ∀ n : Nat, 0 ≤ x → x < 2 ^ n → (Val.nat (x % 2 ^ n).toNat).number = .some x := by
    intro n h0 h1
    simp only [Val.number]
    rw [Int.emod_eq_of_lt h0 h1, Int.toNat_of_nonneg h0]
  have hi : ∀ v : Int, (Val.int v).asI64 = .ok x → (Val.int v).number = .some x := by
    intro v hv
    simp only [Val.asI64, Res.ok.injEq] at hv
    simp only [Val.number, hv]
  cases s <;> simp only [Scalar.Contains] at hx <;> simp only [Scalar.ofInt] at h ⊢ <;>
    first
    | exact hi _ h
    | exact hn _ hx.1 (by omega)
    | exact hn _ hx.1 hx.2

theorem Scalar.fixed_of_contains {s : Scalar} {x : Int} (h : s.Contains x) (env : Env) :
    s.fixed env = s := by
  cases s <;> first | rfl | exact h.elim

/-- A type counts the numbers of its values, and of its default when packed below a choice. -/
structure InitGood (t : TypeOps) (valid : Env → Val → Prop) (dflt : Val)
    (counted : Env → Val → List Nat → List Entry) (packable : Bool → Prop) : Prop where
  create : t.createContext.Tallies (fun _ => [])
  init : ∀ z, packable z → ∀ env v, (valid env v ∨ (z = true ∧ v = dflt)) → ∀ n n' cols,
    n.Tallies cols → t.initContext env v n = .ok n' →
    n'.Tallies (fun q => cols q ++ counted env v q)

/-- The number of an enum or bitmask. -/
theorem numberCodec_tallies {cfg : Cfg} {base : Scalar} {dflt : Val} {number item : Val → Res Val}
    {own : Option DeltaContext} {v num : Val} {x : Int} (hp : base.isPackable = true)
    (hw : base.WidthOk) (hnum : number v = .ok num) (hr : base.InRange cfg ⟨[], []⟩ num)
    (hx : num.number = some x) {n n' : Node} {cols : List Nat → List Entry} (h : n.Tallies cols)
    (hn : (numberCodec cfg base dflt number item own).initContext v n = .ok n') :
    n'.Tallies (fun q => cols q ++ if q = [0] then [(base.fixed ⟨[], []⟩, x)] else []) := by
  simp only [numberCodec, hnum, Res.ok_bind] at hn
  obtain ⟨⟨u, n1⟩, h1, hn⟩ := Res.bind_eq_ok.1 hn
  cases hn
  refine (h.onChild (sub := fun q => if q = [] then [(base.fixed ⟨[], []⟩, x)] else [])
    (fun c c' cs hc hcc => ?_) h1).congr (fun q => ?_)
  · obtain ⟨c2, h3, h4⟩ := Res.bind_eq_ok.1 hcc
    cases h4
    obtain ⟨y, hy, ht⟩ := Scalar.init_tallies hp hw (.inl hr) hc h3
    rw [hx] at hy
    cases hy
    exact ht
  · unfold addField
    cases q with
    | nil => simp
    | cons j r => by_cases hj : j = 0 <;> simp [hj]

theorem FieldOps.init_tallies {cfg : Cfg} {info : FieldInfo} {ty : Ty} {z : Bool}
    (hg : InitGood (ty.ops cfg) (ty.Valid cfg) ty.default (ty.numbers true) (ty.Packable cfg))
    (hc : if info.array.isSome then
        (if info.isOffsetField then ty.Supported cfg else ty.Packable cfg false)
      else if info.isDelta ty then ty.Packable cfg z
      else ty.Supported cfg ∧ ty.isCompound = false)
    {i : Nat} {env : Env} {v : Val}
    (hv : info.FieldValid (ty.Valid cfg) ty.default env v ∨
      (z = true ∧ v = info.default ty.default))
    {n n' : Node} {cols : List Nat → List Entry} (h : n.Tallies cols)
    (hn : FieldOps.initContext ⟨info, ty.ops cfg⟩ i env v n = .ok n') :
    n'.Tallies (fun q => cols q ++ info.numbers (info.isDelta ty) (ty.numbers true) i env v q) := by
  have hskip : (∀ q, info.numbers (info.isDelta ty) (ty.numbers true) i env v q = []) → n' = n →
      n'.Tallies (fun q => cols q ++ info.numbers (info.isDelta ty) (ty.numbers true) i env v q) := by
    intro he e
    rw [e]
    exact h.congr (fun q => by rw [he q, List.append_nil])
  have hmar : ∀ t : Ty, (t.ops cfg).isMarshaler = t.isCompound := by
    intro t; cases t <;> simp [Ty.ops, Ty.isCompound] <;> rfl
  have hpk := Ty.ops_isPackable cfg info ty
  unfold FieldOps.initContext FieldOps.isPackable at hn
  simp only at hn
  cases ha : info.array with
  | some a =>
    simp only [ha, Option.isSome_some, if_true] at hn
    cases hn
    refine hskip (fun q => ?_) rfl
    unfold FieldInfo.numbers
    cases q <;> simp [ha]
  | none =>
    simp only [ha, Option.isSome_none, Bool.false_eq_true, if_false] at hn hc
    have hd : (if info.isOffsetField = true then false else (ty.ops cfg).isPackable) =
        info.isDelta ty := by
      rw [hpk]; cases info.isOffsetField <;> simp
    rw [hd, hmar] at hn
    cases hdel : info.isDelta ty with
    | false =>
      rw [hdel] at hc hn
      simp only [Bool.false_eq_true, if_false] at hc
      simp only [hc.2, Bool.not_false, Bool.and_self, if_true] at hn
      cases hn
      have := hskip (fun q => by
        unfold FieldInfo.numbers
        cases q <;> simp [hdel]) rfl
      rw [hdel] at this
      exact this
    | true =>
      rw [hdel] at hc hn
      simp only [if_true] at hc
      simp only [Bool.not_true, Bool.and_false, Bool.false_eq_true, if_false] at hn
      have hpres : FieldOps.present ⟨info, ty.ops cfg⟩ env = info.clause.all (fun c => c env) := by
        unfold FieldOps.present; cases info.clause <;> rfl
      rw [hpres] at hn
      cases hcl : info.clause.all (fun c => c env) with
      | false =>
        rw [hcl] at hn
        simp only [Bool.false_eq_true, if_false] at hn
        cases hn
        have := hskip (fun q => by
          unfold FieldInfo.numbers
          cases q <;> simp [hcl]) rfl
        rw [hdel] at this
        exact this
      | true =>
        rw [hcl] at hn
        simp only [if_true] at hn
        have hcont : ∀ x, (ty.Valid cfg env x ∨ (z = true ∧ x = ty.default)) →
            FieldOps.initContent ⟨info, ty.ops cfg⟩ i env x n = .ok n' →
            n'.Tallies (addField i cols (ty.numbers true env x)) := by
          intro x hx hn
          unfold FieldOps.initContent at hn
          obtain ⟨⟨u, n1⟩, h1, hn⟩ := Res.bind_eq_ok.1 hn
          cases hn
          refine h.onChild (fun c c' cs hcs hcc => ?_) h1
          obtain ⟨c2, h3, h4⟩ := Res.bind_eq_ok.1 hcc
          cases h4
          exact hg.init z hc env x hx _ _ _ hcs h3
        have hfin : ∀ x, (∀ r, info.numbers true (ty.numbers true) i env v (i :: r) =
              ty.numbers true env x r) →
            n'.Tallies (addField i cols (ty.numbers true env x)) →
            n'.Tallies (fun q => cols q ++
              info.numbers true (ty.numbers true) i env v q) := by
          intro x he ht
          refine ht.congr (fun q => ?_)
          unfold addField
          cases q with
          | nil => simp [FieldInfo.numbers]
          | cons j r =>
            by_cases hj : j = i
            · subst hj; simp [he]
            · simp [hj, FieldInfo.numbers]
        cases ho : info.optional with
        | false =>
          rw [ho] at hn
          simp only [Bool.false_eq_true, if_false] at hn
          refine hfin v (fun r => ?_) (hcont v ?_ hn)
          · simp [FieldInfo.numbers, ha, hcl, ho]
          · rcases hv with hv | ⟨hz, hv⟩
            · unfold FieldInfo.FieldValid FieldInfo.ContentValid at hv
              simp only [hcl, if_true, ho, Bool.false_eq_true, if_false, ha] at hv
              exact .inl hv.1
            · simp only [FieldInfo.default, ho, ha, Option.isSome_none, Bool.false_eq_true,
                if_false] at hv
              exact .inr ⟨hz, hv⟩
        | true =>
          rw [ho] at hn
          simp only [if_true] at hn
          have hv' : v = .none ∨ ∃ x, v = .some x ∧ ty.Valid cfg env x := by
            rcases hv with hv | ⟨hz, hv⟩
            · unfold FieldInfo.FieldValid FieldInfo.ContentValid at hv
              simp only [hcl, if_true, ho, ha] at hv
              rcases hv with hv | ⟨x, h1, h2⟩
              · exact .inl hv
              · exact .inr ⟨x, h1, h2.1⟩
            · simp only [FieldInfo.default, ho, if_true] at hv
              exact .inl hv
          rcases hv' with rfl | ⟨x, rfl, hx⟩
          · simp only at hn
            cases hn
            have := hskip (fun q => by
              unfold FieldInfo.numbers
              cases q <;> simp [ho]) rfl
            rw [hdel] at this
            exact this
          · simp only at hn
            exact hfin x (fun r => by simp [FieldInfo.numbers, ha, hcl, ho]) (hcont x (.inl hx) hn)

theorem FieldOps.create_tallies {f : FieldOps} (h : f.ty.createContext.Tallies (fun _ => [])) :
    f.createContext.Tallies (fun _ => []) := by
  unfold FieldOps.createContext
  split
  · exact Node.tallies_new
  · split
    · exact h
    · exact Node.tallies_new

/-- The fields of a structure. -/
structure FieldsInit (cfg : Cfg) (fs : Fields) : Prop where
  create : ∀ f ∈ fs.ops cfg, f.createContext.Tallies (fun _ => [])
  init : ∀ z, fs.Packable cfg z → ∀ i ps done vs,
    (fs.Valid cfg ps done vs ∨ (z = true ∧ vs = fs.defaults)) → ∀ n n' cols, n.Tallies cols →
    initFields ps (fs.ops cfg) i done vs n = .ok n' →
    n'.Tallies (fun q => cols q ++ fs.numbers true i ps done vs q)

/-- The fields of a choice. -/
structure CasesInit (cfg : Cfg) (cs : Cases) : Prop where
  create : ∀ f ∈ caseFields (cs.ops cfg), f.createContext.Tallies (fun _ => [])
  init : cs.Packable cfg → ∀ i ps sel taken vs,
    (cs.Valid cfg ps sel taken vs ∨ vs = cs.defaults) → ∀ n n' cols, n.Tallies cols →
    initChoice ps (caseFields (cs.ops cfg)) i vs n = .ok n' →
    n'.Tallies (fun q => cols q ++ cs.numbers true i ps sel taken vs q)

theorem Codec.initGood {c : Codec} {valid : Env → Val → Prop} {dflt : Val}
    {counted : Env → Val → List Nat → List Entry} {packable : Bool → Prop}
    (h1 : c.createContext.Tallies (fun _ => []))
    (h2 : ∀ z, packable z → ∀ env v, (valid env v ∨ (z = true ∧ v = dflt)) → ∀ n n' cols,
      n.Tallies cols → c.initContext v n = .ok n' →
      n'.Tallies (fun q => cols q ++ counted env v q)) :
    InitGood c.ops valid dflt counted packable := ⟨h1, h2⟩

mutual
/-- What a type counts. -/
theorem Ty.initGood (cfg : Cfg) : (t : Ty) →
    InitGood (t.ops cfg) (t.Valid cfg) t.default (t.numbers true) (t.Packable cfg)
  | .scalar s => by
    simp only [Ty.ops]
    refine ⟨Node.tallies_delta, fun z hp env v hv n n' cols h hn => ?_⟩
    rw [Ty.Packable] at hp
    have hv' : s.InRange cfg env v ∨ v = s.dflt := by
      rcases hv with hv | ⟨_, hv⟩
      · rw [Ty.Valid] at hv; exact .inl hv
      · rw [Ty.default] at hv; exact .inr hv
    obtain ⟨x, hx, ht⟩ := Scalar.init_tallies hp.1 hp.2.1 hv' h hn
    refine ht.congr (fun q => ?_)
    rw [Ty.numbers, hx]
    simp [hp.1]
  | .enum base items => by
    simp only [Ty.ops, enumCodec]
    refine Codec.initGood (Node.tallies_mk (fun c h => by cases h) (fun n hn => by
      rw [List.mem_singleton] at hn; subst hn; exact Node.tallies_delta))
      (fun z hp env v hv n n' cols h hn => ?_)
    rw [Ty.Packable] at hp
    obtain ⟨hpk, hw, _, _, hz⟩ := hp
    have hv' : ∃ i x, v = .item i ∧ (enumValues items)[i]? = some x ∧ base.Contains x ∧
        x < 2 ^ 63 := by
      rcases hv with hv | ⟨z1, hv⟩
      · rw [Ty.Valid] at hv; exact hv
      · rw [Ty.default] at hv
        obtain ⟨h0, h1⟩ := hz z1
        exact ⟨0, 0, hv, h0, h1, by decide⟩
    obtain ⟨i, x, rfl, hi, hc, h63⟩ := hv'
    refine (numberCodec_tallies hpk hw (num := base.ofInt x) (x := x) (by simp [enumNumber, hi])
      (Scalar.ofInt_spec hw hc h63).1 (Scalar.ofInt_number (cfg := cfg) hw hc h63) h hn).congr
      (fun q => ?_)
    simp only [Ty.numbers, hi, Scalar.fixed_of_contains hc]
  | .bitmask base first => by
    simp only [Ty.ops, bitmaskCodec]
    refine Codec.initGood (Node.tallies_mk (fun c h => by cases h; rfl) (fun n hn => by
      rw [List.mem_singleton] at hn; subst hn; exact Node.tallies_delta))
      (fun z hp env v hv n n' cols h hn => ?_)
    rw [Ty.Packable] at hp
    obtain ⟨hpk, hw, _, hz⟩ := hp
    have hv' : base.InRange cfg ⟨[], []⟩ v := by
      rcases hv with hv | ⟨z1, hv⟩
      · rw [Ty.Valid] at hv; exact hv
      · rw [Ty.default] at hv
        obtain ⟨h0, h1⟩ := hz z1
        rw [hv, h0]
        exact (Scalar.ofInt_spec hw h1 (by decide)).1
    obtain ⟨x, u, hx, _⟩ := Scalar.toU64_number hpk hv'
    refine (numberCodec_tallies hpk hw (num := v) (x := x) rfl hv' hx h hn).congr
      (fun q => ?_)
    simp only [Ty.numbers, hx]
  | .struct params fields => by
    have hf := Fields.initGood cfg fields
    simp only [Ty.ops]
    refine Codec.initGood (Node.tallies_mk (fun c h => by cases h) (fun n hn => ?_))
      (fun z hp env v hv n n' cols h hn => ?_)
    · obtain ⟨f, hm, rfl⟩ := List.mem_map.1 hn
      exact hf.create f hm
    · rw [Ty.Packable] at hp
      have hv' : ∃ ps vs, v = .obj ps vs ∧
          (fields.Valid cfg ps [] vs ∨ (z = true ∧ vs = fields.defaults)) := by
        rcases hv with hv | ⟨hz, hv⟩
        · rw [Ty.Valid] at hv
          obtain ⟨ps, vs, e, hv⟩ := hv
          exact ⟨ps, vs, e, .inl hv⟩
        · rw [Ty.default] at hv
          exact ⟨_, _, hv, .inr ⟨hz, rfl⟩⟩
      obtain ⟨ps, vs, rfl, hv2⟩ := hv'
      exact (hf.init z hp 0 ps [] vs hv2 _ _ _ h hn).congr (fun q => by rw [Ty.numbers])
  | .choice params sel cases => by
    have hf := Cases.initGood cfg cases
    simp only [Ty.ops]
    refine Codec.initGood (Node.tallies_mk (fun c h => by cases h) (fun n hn => ?_))
      (fun z hp env v hv n n' cols h hn => ?_)
    · obtain ⟨f, hm, rfl⟩ := List.mem_map.1 hn
      exact hf.create f hm
    · rw [Ty.Packable] at hp
      have hv' : ∃ ps vs, v = .obj ps vs ∧
          (cases.Valid cfg ps (sel ps) false vs ∨ vs = cases.defaults) := by
        rcases hv with hv | ⟨hz, hv⟩
        · rw [Ty.Valid] at hv
          obtain ⟨ps, vs, e, hv⟩ := hv
          exact ⟨ps, vs, e, .inl hv⟩
        · rw [Ty.default] at hv
          exact ⟨_, _, hv, .inr rfl⟩
      obtain ⟨ps, vs, rfl, hv2⟩ := hv'
      exact (hf.init hp 0 ps (sel ps) false vs hv2 _ _ _ h hn).congr (fun q => by rw [Ty.numbers])
  | .union params members => by
    simp only [Ty.ops]
    refine Codec.initGood Node.tallies_new (fun z hp env v hv n n' cols h hn => ?_)
    rw [Ty.Packable] at hp
    exact hp.elim
/-- What fields count. -/
theorem Fields.initGood (cfg : Cfg) : (fs : Fields) → FieldsInit cfg fs
  | .nil => by
    refine ⟨fun f hf => by simp [Fields.ops] at hf, fun z _ i ps done vs _ n n' cols h hn => ?_⟩
    simp only [Fields.ops] at hn
    cases vs with
    | nil =>
      cases hn
      exact h.congr (fun q => by rw [Fields.numbers, List.append_nil])
    | cons => cases hn
  | .cons info ty rest => by
    have hty := Ty.initGood cfg ty
    have hrest := Fields.initGood cfg rest
    refine ⟨fun f hf => ?_, fun z hp i ps done vs hv n n' cols h hn => ?_⟩
    · simp only [Fields.ops] at hf
      cases hf with
      | head => exact FieldOps.create_tallies (f := ⟨info, ty.ops cfg⟩) hty.create
      | tail _ hf => exact hrest.create f hf
    · rw [Fields.Packable] at hp
      have hv' : ∃ v vs', vs = v :: vs' ∧
          (info.FieldValid (ty.Valid cfg) ty.default ⟨ps, done⟩ v ∨
            (z = true ∧ v = info.default ty.default)) ∧
          (rest.Valid cfg ps (done ++ [v]) vs' ∨ (z = true ∧ vs' = rest.defaults)) := by
        rcases hv with hv | ⟨hz, hv⟩
        · rw [Fields.Valid] at hv
          obtain ⟨v, vs', e, h1, h2⟩ := hv
          exact ⟨v, vs', e, .inl h1, .inl h2⟩
        · rw [Fields.defaults] at hv
          exact ⟨_, _, hv, .inr ⟨hz, rfl⟩, .inr ⟨hz, rfl⟩⟩
      obtain ⟨v, vs', rfl, h1, h2⟩ := hv'
      simp only [Fields.ops, initFields] at hn
      obtain ⟨n1, hn1, hn⟩ := Res.bind_eq_ok.1 hn
      have t1 := FieldOps.init_tallies hty hp.1 h1 h hn1
      have t2 := hrest.init z hp.2 (i + 1) ps (done ++ [v]) vs' h2 _ _ _ t1 hn
      exact t2.congr (fun q => by rw [Fields.numbers]; simp only [List.append_assoc])
/-- What the fields of a choice count. -/
theorem Cases.initGood (cfg : Cfg) : (cs : Cases) → CasesInit cfg cs
  | .nil => by
    refine ⟨fun f hf => by simp [Cases.ops, caseFields] at hf,
      fun _ i ps sel taken vs _ n n' cols h hn => ?_⟩
    simp only [Cases.ops, caseFields, List.filterMap_nil] at hn
    cases vs with
    | nil =>
      cases hn
      exact h.congr (fun q => by rw [Cases.numbers, List.append_nil])
    | cons => cases hn
  | .field labels info ty rest => by
    have hty := Ty.initGood cfg ty
    have hrest := Cases.initGood cfg rest
    refine ⟨fun f hf => ?_, fun hp i ps sel taken vs hv n n' cols h hn => ?_⟩
    · simp only [Cases.ops, caseFields, List.filterMap_cons] at hf
      cases hf with
      | head => exact FieldOps.create_tallies (f := ⟨info, ty.ops cfg⟩) hty.create
      | tail _ hf => exact hrest.create f hf
    · rw [Cases.Packable] at hp
      have hv' : ∃ v vs', vs = v :: vs' ∧
          (info.FieldValid (ty.Valid cfg) ty.default ⟨ps, []⟩ v ∨
            (true = true ∧ v = info.default ty.default)) ∧
          (rest.Valid cfg ps sel (taken || decide (sel ∈ labels)) vs' ∨ vs' = rest.defaults) := by
        rcases hv with hv | hv
        · rw [Cases.Valid] at hv
          obtain ⟨v, vs', e, h1, h2⟩ := hv
          refine ⟨v, vs', e, ?_, .inl h2⟩
          split at h1
          · exact .inl h1
          · exact .inr ⟨rfl, h1⟩
        · rw [Cases.defaults] at hv
          exact ⟨_, _, hv, .inr ⟨rfl, rfl⟩, .inr rfl⟩
      obtain ⟨v, vs', rfl, h1, h2⟩ := hv'
      simp only [Cases.ops, caseFields, List.filterMap_cons, initChoice] at hn
      obtain ⟨n1, hn1, hn⟩ := Res.bind_eq_ok.1 hn
      have t1 := FieldOps.init_tallies hty hp.1 h1 h hn1
      have t2 := hrest.init hp.2 (i + 1) ps sel _ vs' h2 _ _ _ t1 hn
      exact t2.congr (fun q => by
        rw [Cases.numbers]; simp only [true_or, if_true, List.append_assoc])
  | .empty labels rest => by
    have hrest := Cases.initGood cfg rest
    refine ⟨fun f hf => ?_, fun hp i ps sel taken vs hv n n' cols h hn => ?_⟩
    · simp only [Cases.ops, caseFields, List.filterMap_cons] at hf
      exact hrest.create f hf
    · rw [Cases.Packable] at hp
      have hv' : rest.Valid cfg ps sel (taken || decide (sel ∈ labels)) vs ∨ vs = rest.defaults := by
        rcases hv with hv | hv
        · rw [Cases.Valid] at hv; exact .inl hv
        · rw [Cases.defaults] at hv; exact .inr hv
      simp only [Cases.ops, caseFields, List.filterMap_cons] at hn
      exact (hrest.init hp i ps sel _ vs hv' _ _ _ h hn).congr (fun q => by rw [Cases.numbers])
end

end Zs
