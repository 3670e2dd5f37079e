import Verif.AcyclicLemmas
import Verif.PropsMethod

/-!
# C95: dependencies that the text shows
-/

namespace Zs

open Src Ast Spec Emit

variable {fo : FloatOps} {K K' : Constants fo.F} {round : List Char → fo.F} {display : fo.F → List Char}
variable {float : Val → fo.F} {md build : Mode} {esc : EScope fo.F}
variable {P P' : Src.Package} {Q : Ast.Package fo.F} {T : Map (Symbol fo.F)}

/-- **C95** If by the text of the package no constant depends on itself, then none of the emitted Rust constants does. -/
theorem C95_constants (h : NoCycle (ConstUses P.directives)) (hs : ConstsStand round P.directives K) :
    ConstsAcyclic md round P.directives K := by
  obtain ⟨rank, hr⟩ := ranked (L := (constsIn P.directives).map Src.Const.name)
    (fun a b ⟨c, hc, c', hc', e, _⟩ => e ▸ List.mem_map_of_mem hc') h
  refine ⟨rank, fun c hc x hx m hm hty => hr _ _ ?_⟩
  by_cases hmem : m ∈ (constsIn P.directives).map Src.Const.name
  · obtain ⟨c', hc', rfl⟩ := List.mem_map.1 hmem
    exact ⟨c, hc, c', hc', rfl, rfl, code_names hx _ _ _ hm⟩
  · exact (hty (hs.others m hmem).1).elim

/-- **C95** What is generated for a function that calls itself, as in `function uint8 f() { return f(); }`, does not determine
what it returns: every value goes with it, whatever calls of it are said to return.  (The emitted method runs forever.) -/
theorem C95_self_call {cfg : Cfg} (hK : K.Good) (hQ : visitPackage (floatText fo round display) P = .ok Q)
    (hn : ((P.directives.filterMap declares).map Prod.fst).Nodup) (hw : WrittenOut P P')
    (hT : TableUnder (fileSymbols Q) T) {D : Src.Directive} (hD : D ∈ P'.directives) {s : Src.Struct}
    (hs : bodyOf D = some s) (hh : Heads K.enums s) {f : Src.Func} (hf : f ∈ s.functions) {known : List String}
    (hx : Stands round known f.body (.call (.ident f.name))) {z : ZTy} (hz : typeIn K.types f.type = some z) {R : RTy}
    (hR : valueTy z = some R) {ps vs : List Val} (hps : ParamsValid cfg K.enums s.params ps) (hvs : FieldsShaped s.fields vs)
    {u : Datum fo.F Object} (hu : ReturnsAs z u u)
    (hty : Typed (rscope (textScope K s)) (functionCode (fo := fo) md (textScope K s) z (.call (.ident f.name))) R)
    (hc : K.calls s.name f.name ⟨ps, vs⟩ = some u) : Called md build float T K s.name f.name ⟨ps, vs⟩ u :=
  (called_iff hQ hn hw hT hD hs hh hf hx hz hR _ u).2 ⟨hty, returns_code hu (textScope_ordinary hK s)
    (good_conforms hK (fun j p v z h1 h2 ⟨_, _, hz⟩ => params_good hps j p v z h1 h2 hz) hvs)
    (call_means hh hf hz (returnsAs_returns hu) hc) hR hty fun _ _ => trivial⟩

/-- **C95** The other way round: if a constant uses itself, directly or through others, and not in front of a dot, then the Rust
compiler refuses what is emitted, because there are no values that go with it. -/
theorem C95_refused (hQ : visitPackage (floatText fo round display) P = .ok Q)
    (hn : ((P.directives.filterMap declares).map Prod.fst).Nodup) (hw : WrittenOut P P') (hT : TableUnder (fileSymbols Q) T)
    (hty : ∀ c ∈ constsIn P'.directives, ∃ t z, c.type = ⟨t, .none⟩ ∧ exprTypeOf t = some z)
    (hst : ∀ c ∈ constsIn P'.directives, ∃ known x, Stands round known c.value x) {a : String}
    (h : Relation.TransGen (ConstMentions P'.directives) a a) (K : Constants fo.F) : ¬ ConstsSeen md esc T K := by
  intro hK
  obtain ⟨Q', hQ', h'⟩ := C86_same_symbols _ hQ hn hw
  obtain rfl := (h' T).1 hT
  obtain ⟨rank, hr⟩ := hK.acyclic
  have step : ∀ a b, ConstMentions P'.directives a b → rank a < rank b := by
    rintro _ _ ⟨c, hc, c', hc', rfl, rfl, hm⟩
    obtain ⟨d, hd, -, hdx⟩ := const_found hQ' (names_out hn hw) hc
    obtain ⟨d', hd', hdt, -⟩ := const_found hQ' (names_out hn hw) hc'
    obtain ⟨known, x, hx⟩ := hst c hc
    obtain ⟨t, z, ht, hz⟩ := hty c' hc'
    refine hr _ _ x hd (hdx _ _ hx) _ (plain_names hx _ _ _ hm) ?_
    rw [hK.ty]
    simp only [constType, hd']
    rw [hdt K, ht, typeIn_num hz]
    exact Option.some_ne_none _
  have : ∀ b, Relation.TransGen (ConstMentions P'.directives) a b → rank a < rank b := fun b hb => by
    induction hb with
    | single h1 => exact step _ _ h1
    | tail _ h2 ih => exact Nat.lt_trans ih (step _ _ h2)
  exact Nat.lt_irrefl _ (this a h)

/-- **C95** If by the text of the package no structure contains itself and no function calls itself, then the calls of the
emitted methods end. -/
theorem C95_functions (hQ : visitPackage (floatText fo round display) P = .ok Q)
    (hn : ((P.directives.filterMap declares).map Prod.fst).Nodup) (hw : WrittenOut P P')
    (hs : ConstsStand round P'.directives K) (ht : NoCycle (TypeUses P'.directives)) (hf : NoCycle (FuncUses P'.directives))
    (hb : ∀ D ∈ P'.directives, ∀ s, bodyOf D = some s → ∀ f ∈ s.functions, ∃ known x, Stands round known f.body x)
    (hT : TableUnder (fileSymbols Q) T) : CallsEnd md T K := by
  obtain ⟨Q', hQ', h⟩ := C86_same_symbols _ hQ hn hw
  obtain rfl := (h T).1 hT
  obtain ⟨depth, hd⟩ := ranked (L := (P'.directives.filterMap bodyOf).map Src.Struct.name) (fun a b hab => by
    obtain ⟨D, hD, s, hs, -, ⟨h, hh, rfl⟩, -⟩ := hab
    exact List.mem_map.2 ⟨h, List.mem_filterMap.2 ⟨_, hh, rfl⟩, rfl⟩) ht
  obtain ⟨rank, hr⟩ := ranked (L := (P'.directives.filterMap bodyOf).flatMap fun s => s.functions.map fun f => (s.name, f.name))
    (fun a b hab => by
      obtain ⟨D, hD, s, hs, h1, -, f, -, g, hg, h2, -⟩ := hab
      exact List.mem_flatMap.2 ⟨s, List.mem_filterMap.2 ⟨_, hD, hs⟩, List.mem_map.2 ⟨g, hg, by rw [h1, h2]⟩⟩) hf
  have hcomp : ∀ (ty : Src.Ty) (t : String), typeIn K.types ty = some (.compound t) →
      (∃ h, .struct h ∈ P'.directives ∧ h.name = t) ∧
        ∃ first rest args, (first :: rest).getLast (by simp) = t ∧ ty = .named first rest args := by
    intro ty t hty
    cases ty with
    | named first rest args =>
      have hK : K.types ((first :: rest).getLast (by simp)) = some (.compound t) := hty
      generalize hl : (first :: rest).getLast (by simp) = n at hK
      have hnt : n = t ∧ K.objects n ≠ none := by
        unfold Constants.types at hK
        split at hK
        · cases hK
        · split at hK
          · cases hK
          · cases ho : K.objects n with
            | none => simp [ho] at hK
            | some ms =>
              simp only [ho, Option.map_some, Option.some.injEq, ZTy.compound.injEq] at hK
              exact ⟨hK, by simp⟩
      obtain ⟨rfl, ho⟩ := hnt
      refine ⟨Classical.byContradiction fun hno => ho (hs.objects.others n fun s hs e => hno ⟨s, hs, e⟩), first, rest, args, hl, rfl⟩
    | builtin name =>
      have : exprTypeOf (.builtin name) = some (.compound t) := hty
      simp only [exprTypeOf] at this
      split at this <;> cases this
    | fixedBits sg n =>
      have : exprTypeOf (.fixedBits sg n) = some (.compound t) := hty
      simp only [exprTypeOf] at this
      split at this <;> cases this
  refine ⟨⟨depth, depth_visit hQ' fun D s hD hbs x hx t sh hsy => hd _ _ ?_⟩, fun n m => rank (n, m),
    fun n y d f e z hy hyd hfd he hz m hm hmem => hr _ _ ?_⟩
  · simp only [membersOf, List.mem_append, List.mem_map] at hx
    rcases hx with ⟨⟨p, i⟩, hp, rfl⟩ | ⟨⟨g, i⟩, hg, rfl⟩
    · obtain ⟨z, hz, e⟩ := Option.map_eq_some_iff.1 hsy
      cases e
      obtain ⟨h1, first, rest, args, h2, h3⟩ := hcomp _ _ hz
      exact ⟨D, hD, s, hbs, rfl, h1, first, rest, args, h2, .inl ⟨p, (List.mem_zipIdx' hp).2 ▸ List.getElem_mem _, h3⟩⟩
    · obtain ⟨z, hz, e⟩ := Option.map_eq_some_iff.1 hsy
      cases e
      obtain ⟨h1, first, rest, args, h2, h3⟩ := hcomp _ _ hz
      exact ⟨D, hD, s, hbs, rfl, h1, first, rest, args, h2, .inr ⟨g, (List.mem_zipIdx' hg).2 ▸ List.getElem_mem _, h3⟩⟩
  · obtain ⟨D, hD, hname, hv⟩ := symbol_visited (components hQ') hy
    obtain ⟨s, hbs⟩ := visited_functions hv hyd
    obtain ⟨d', hd', hvd⟩ := visited_body hv hbs
    obtain rfl : d' = d := Option.some.inj (hd'.symm.trans hyd)
    obtain rfl : s.name = n := Option.some.inj ((body_name hbs).symm.trans hname)
    simp only [visitStruct, Res.bind_eq_ok, Res.ok.injEq] at hvd
    obtain ⟨qs, -, fs, -, us, hus, rfl⟩ := hvd
    obtain ⟨f', hf', hvf⟩ := visitList_mem' hus f hfd
    obtain ⟨u, hu, rfl⟩ := List.mem_map.1 hmem
    obtain ⟨g', hg', hvg⟩ := visitList_mem' hus u hu
    obtain ⟨h1, h2, h3⟩ := visitFunc_parts hvf
    obtain ⟨known, x, hx⟩ := hb D hD s hbs f' hf'
    obtain rfl : x = e := Option.some.inj ((expr_visit hx _ h3).symm.trans he)
    exact ⟨D, hD, s, hbs, rfl, rfl, f', hf', g', hg', (visitFunc_parts hvg).1.symm, h1.symm, functionCode_names hx _ _ _ _ hm⟩

/-- **C95** So what is generated for the constants and functions of a package is determined, and it is there. -/
theorem C95_names (hQ : visitPackage (floatText fo round display) P = .ok Q)
    (hn : ((P.directives.filterMap declares).map Prod.fst).Nodup) (hw : WrittenOut P P')
    (hs : ConstsStand round P'.directives K) (hf : ConstsFit md round P'.directives K)
    (hc : NoCycle (ConstUses P'.directives)) (ht : NoCycle (TypeUses P'.directives)) (hu : NoCycle (FuncUses P'.directives))
    (hb : ∀ D ∈ P'.directives, ∀ s, bodyOf D = some s → ∀ f ∈ s.functions, ∃ known x, Stands round known f.body x) :
    ∃ T calls, TableUnder (fileSymbols Q) T ∧
      ∀ K', ConstsSeen md esc T K' ∧ CallsSeen md build float T K' ↔ K' = { K with calls := calls } :=
  C93_names hQ hn hw hs hf (C95_constants hc hs) fun _ hT => C95_functions hQ hn hw hs ht hu hb hT

/-- **C95 (partial)** From the characters of a schema to bits and back, where what the constants and functions are follows from
the text.  Missing: as in C87 and C93. -/
theorem C95_characters_partial {cfg : Cfg} {cs : List Char} (h : SchemaText P cs) (hw : WrittenOut P P')
    (hs : ConstsStand round P'.directives K) (hf : ConstsFit md round P'.directives K)
    (hc : NoCycle (ConstUses P'.directives)) (ht : NoCycle (TypeUses P'.directives)) (hu : NoCycle (FuncUses P'.directives))
    (hb : ∀ D ∈ P'.directives, ∀ s, bodyOf D = some s → ∀ f ∈ s.functions, ∃ known x, Stands round known f.body x) :
    ∃ Q T calls, packageOfText (floatText fo round display) cs = some (.ok Q) ∧ TableUnder (fileSymbols Q) T ∧
      (∀ K', ConstsSeen md esc T K' ∧ CallsSeen md build float T K' ↔ K' = { K with calls := calls }) ∧
      ∀ (t : SourceTy fo.F Object) (name : String) (ps : List Src.Param) (look : Env → World fo.F Object),
        t.Declares round float { K with calls := calls } P'.directives name ps → t.Accepts md → (t.meaning look).Supported cfg →
        (∃ c qs, CodeOf cfg md build float { K with calls := calls } esc T name c qs) ∧
        ∀ c qs, CodeOf cfg md build float { K with calls := calls } esc T name c qs →
          ∀ v, PackageValue cfg md K.enums ps t look v → ∀ before,
          ∃ bits, c.write v ⟨before⟩ = .ok ⟨before ++ bits⟩ ∧ ∀ after,
            c.read ((t.meaning look).default.withParams v.params) ⟨before.length, bits ++ after⟩ =
              .ok (v, ⟨before.length + bits.length, after⟩) := by
  obtain ⟨Q, h1, hQ⟩ := C85_package (floatText fo round display) h
  obtain ⟨T, calls, hT, hK⟩ := C95_names (md := md) (build := build) (float := float) (esc := esc) hQ h.names hw hs hf hc ht hu hb
  refine ⟨Q, T, calls, h1, hT, hK, fun t name ps look hd hacc hsup => ⟨?_, fun c qs hcode v hv before => ?_⟩⟩
  · obtain ⟨T', hT', c, qs, hcode⟩ := C86_every_type cfg md build esc hQ h.names hw hd
    obtain rfl := tableUnder_unique hT hT'
    exact ⟨c, qs, hcode⟩
  · exact C86_round_trip_partial (stand_good (stand_calls calls hs)) hQ h.names hw hd hT hcode hacc hsup v hv before

/-! ## Examples -/

/-- `const uint8 A = B;` -/
def loopA : Src.Const := ⟨⟨.builtin "uint8", .none⟩, "A", .id "B"⟩

/-- `const uint8 B = A + 1;` -/
def loopB : Src.Const := ⟨⟨.builtin "uint8", .none⟩, "B", .binary .add (.id "A") (.lit .decimal ['1'])⟩

/-- The package with these constants. -/
def loopText : Src.Package := { parcelText with directives := [.const loopA, .const loopB] }

-- There are no such constants.
example (esc : EScope tenths.F) (display : tenths.F → List Char) : ∃ Q T,
    visitPackage (floatText tenths noRound display) loopText = .ok Q ∧ TableUnder (fileSymbols Q) T ∧
      ∀ K, ¬ ConstsSeen .debug esc T K := by
  obtain ⟨Q, hQ⟩ : ∃ Q, visitPackage (floatText tenths noRound display) loopText = .ok Q :=
    ⟨_, by with_unfolding_all rfl⟩
  have hw : WrittenOut loopText loopText :=
    ⟨_, .cons (.const (i := loopA.type) ⟨.builtin, rfl, nofun⟩) (.cons (.const (i := loopB.type) ⟨.builtin, rfl, nofun⟩) .nil), rfl⟩
  have hn : ((loopText.directives.filterMap declares).map Prod.fst).Nodup := by decide
  obtain ⟨Q', hQ', h'⟩ := C86_same_symbols _ hQ hn hw
  have hmem : ∀ c ∈ constsIn loopText.directives, c = loopA ∨ c = loopB := fun c hc => by simpa [constsIn, loopText] using hc
  refine ⟨Q, _, hQ, (h' _).2 rfl, C95_refused (a := "A") hQ hn hw ((h' _).2 rfl) (fun c hc => ?_) (fun c hc => ?_) ?_⟩
  · rcases hmem c hc with rfl | rfl <;> exact ⟨_, _, rfl, rfl⟩
  · rcases hmem c hc with rfl | rfl
    · exact ⟨["B"], _, .id (by simp)⟩
    · exact ⟨["A"], _, .binary (.id (by simp)) (.int (l := .decimal [1]) (by simp [IntLit.WellFormed]) (by simp [IntLit.IsBinary]))⟩
  · have ha : loopA ∈ constsIn loopText.directives := by simp [constsIn, loopText]
    have hb : loopB ∈ constsIn loopText.directives := by simp [constsIn, loopText]
    exact .tail (.single ⟨loopB, hb, loopA, ha, rfl, rfl, by simp [plainNames, loopA, loopB]⟩)
      ⟨loopA, ha, loopB, hb, rfl, rfl, by simp [plainNames, loopA, loopB]⟩

theorem parcel_dirs : ∀ D ∈ parcelText.directives, D = .struct parcel ∨ D = .struct parcelPart := fun D hD => by
    simpa [parcelText] using hD

theorem noCycle_rank {α : Type} {uses : α → α → Prop} (r : α → Nat) (h : ∀ a b, uses a b → r a < r b) : NoCycle uses := by
  intro a ha
  have : ∀ b, Relation.TransGen uses a b → r a < r b := fun b hb => by
    induction hb with
    | single h1 => exact h _ _ h1
    | tail _ h2 ih => exact Nat.lt_trans ih (h _ _ h2)
  exact Nat.lt_irrefl _ (this a ha)

theorem parcel_constUses : NoCycle (ConstUses parcelText.directives) := by
  refine noCycle_rank (fun _ => 0) fun a b ⟨c, hc, _⟩ => ?_
  simp [constsIn, parcelText] at hc

theorem parcel_typeUses : NoCycle (TypeUses parcelText.directives) := by
  refine noCycle_rank (fun n => if n = "Parcel" then 1 else 0) fun a b ⟨D, hD, s, hs, hb, _, first, rest, args, ha, h⟩ => ?_
  rcases parcel_dirs D hD with rfl | rfl <;> cases hs <;> subst hb
  · rcases h with ⟨p, hp, -⟩ | ⟨f, hf, hf'⟩
    · simp [parcel] at hp
    · simp only [parcel, List.mem_cons, List.not_mem_nil, or_false] at hf
      rcases hf with rfl | rfl
      · cases hf'
        subst ha
        decide
      · cases hf'
  · rcases h with ⟨p, hp, -⟩ | ⟨f, hf, hf'⟩
    · simp [parcelPart] at hp
    · simp only [parcelPart, List.mem_cons, List.not_mem_nil, or_false] at hf
      subst hf
      cases hf'

theorem parcel_funcUses : NoCycle (FuncUses parcelText.directives) := by
  refine noCycle_rank (fun _ => 0) fun a b ⟨D, hD, s, hs, _, _, f, hf, g, hg, hga, _, hu⟩ => ?_
  rcases parcel_dirs D hD with rfl | rfl <;> cases hs
  · obtain rfl : f = parcelSize := by simpa [parcel] using hf
    obtain rfl : g = parcelSize := by simpa [parcel] using hg
    rw [← hga] at hu
    simp [usedNames, parcelSize] at hu
  · obtain rfl : f = bufSize := by simpa [parcelPart] using hf
    obtain rfl : g = bufSize := by simpa [parcelPart] using hg
    rw [← hga] at hu
    simp [usedNames, bufSize] at hu

theorem parcel_bodies : ∀ D ∈ parcelText.directives, ∀ s, bodyOf D = some s → ∀ f ∈ s.functions,
      ∃ known x, Stands noRound known f.body (x : Expr tenths.F) := by
  intro D hD s hs f hf
  rcases parcel_dirs D hD with rfl | rfl <;> cases hs
  · obtain rfl : f = parcelSize := by simpa [parcel] using hf
    exact ⟨_, _, parcelExpr_stands⟩
  · obtain rfl : f = bufSize := by simpa [parcelPart] using hf
    exact ⟨_, _, bufExpr_stands⟩

-- The parcels of C94.
example (esc : EScope tenths.F) (build : Mode) (display : tenths.F → List Char) : ∃ Q T calls,
    visitPackage (floatText tenths noRound display) parcelText = .ok Q ∧ TableUnder (fileSymbols Q) T ∧
      ∀ K', ConstsSeen .debug esc T K' ∧ CallsSeen .debug build noNumber T K' ↔ K' = { parcelNames with calls := calls } := by
  obtain ⟨Q, hQ⟩ := parcel_visit display
  obtain ⟨T, calls, hT, h⟩ := C95_names (md := .debug) (build := build) (float := noNumber) (esc := esc) hQ parcel_names parcel_out
    parcel_stand parcel_fit parcel_constUses parcel_typeUses parcel_funcUses parcel_bodies
  exact ⟨Q, T, calls, hQ, hT, h⟩

/-- The text of this package. -/
def parcelChars : List Char :=
  "package demo ; ".toList ++
  "struct Parcel { Part part ; uint8 data [ size ( ) ] ; function uint8 size ( ) { return part . size ( ) ; } } ; ".toList ++
  "struct Part { uint8 n ; function uint8 size ( ) { return n * 2 ; } } ; ".toList

/-- The tokens of this text. -/
def parcelTokens : List Token :=
  writtenName parcelText.name ++ parcelText.directives.flatMap writtenDirective

theorem parcel_written : FileWritten parcelText parcelChars := by
  refine ⟨parcelTokens, ?_, ?_⟩
  · have h := tokens_spaced (parcelTokens.map fun t => (t, tokenChars t)) (fun p hp => spells_of_check (by
      revert p; decide +kernel))
    have e1 : (parcelTokens.map fun t => (t, tokenChars t)).flatMap (fun p => p.2 ++ [' ']) = parcelChars := by
      decide +kernel
    have e2 : (parcelTokens.map fun t => (t, tokenChars t)).map Prod.fst = parcelTokens := by simp [Function.comp_def]
    rwa [e1, e2] at h
  · refine ⟨_, .cons (.plain _ (by simp)) (.cons (.plain _ (by simp)) .nil), ?_⟩
    simp [parcelTokens, parcelText, writtenVersion]

theorem parcel_fileOk : FileOk true parcelText := by
  have hn : OptionOk none := fun _ h => by cases h
  have h8 : TypeOk (.builtin "uint8") := by simp [TypeOk, builtinNames]
  have plain : ∀ t x, InstOk true t → FieldOk true (textField t x) := fun t x ht =>
    ⟨hn, hn, ⟨ht, nofun⟩, hn, hn, hn, fun _ _ _ e h => by cases h⟩
  refine ⟨nofun, nofun, ?_⟩
  intro d hd
  rcases parcel_dirs d hd with rfl | rfl
  · refine ⟨nofun, ?_, ?_⟩
    · intro f hf
      simp only [parcel, List.mem_cons, List.not_mem_nil, or_false] at hf
      rcases hf with rfl | rfl
      · exact plain _ _ ⟨by simp [TypeOk, TypesOk], trivial⟩
      · refine ⟨hn, hn, ⟨⟨h8, trivial⟩, ?_⟩, hn, hn, hn, fun _ _ _ e h => by cases h⟩
        intro e he
        cases he
        trivial
    · intro f hf
      obtain rfl : f = parcelSize := by simpa [parcel] using hf
      exact ⟨h8, (by decide : looseness (.dot (.id "part") "size") ≤ 1), (by decide : looseness (.id "part") ≤ 1), trivial⟩
  · refine ⟨nofun, ?_, ?_⟩
    · intro f hf
      obtain rfl : f = bufN := by simpa [parcelPart] using hf
      exact plain _ _ ⟨h8, trivial⟩
    · intro f hf
      obtain rfl : f = bufSize := by simpa [parcelPart] using hf
      exact ⟨h8, (by decide : looseness (.id "n") ≤ 3 + group .mul),
        (by decide : looseness (.lit .decimal ['2']) < 3 + group .mul), trivial, trivial⟩

theorem parcel_schema : SchemaText parcelText parcelChars := by
  have hp := C84_characters_partial parcelText parcel_fileOk _ parcel_written
  obtain ⟨h1, h2⟩ := (C84_accepted_iff (floatText tenths noRound fun _ => []) _ _ hp).1.1 (parcel_visit _)
  exact ⟨parcel_written, parcel_fileOk, h1, h2, parcel_names⟩

-- From the characters to the bits of a parcel and back.
example (cfg : Cfg) (build : Mode) (esc : EScope tenths.F) (display : tenths.F → List Char) : ∃ Q T calls c qs bits,
    packageOfText (floatText tenths noRound display) parcelChars = some (.ok Q) ∧ TableUnder (fileSymbols Q) T ∧
    (∀ K', ConstsSeen .debug esc T K' ∧ CallsSeen .debug build noNumber T K' ↔ K' = parcelConsts calls) ∧
    CodeOf cfg .debug build noNumber (parcelConsts calls) esc T "Parcel" c qs ∧
    c.write parcelVal ⟨[]⟩ = .ok ⟨bits⟩ ∧
      c.read ((parcelTy calls).meaning (textLook noNumber (parcelConsts calls) parcel)).default ⟨0, bits⟩ =
        .ok (parcelVal, ⟨bits.length, []⟩) := by
  obtain ⟨Q, T, calls, h1, hT, hK, h⟩ := C95_characters_partial (cfg := cfg) (md := .debug) (build := build) (float := noNumber)
    (esc := esc) (display := display) parcel_schema parcel_out parcel_stand parcel_fit parcel_constUses parcel_typeUses
    parcel_funcUses parcel_bodies
  obtain ⟨Q', h1', hQ⟩ := C85_package (floatText tenths noRound display) parcel_schema
  cases h1.symm.trans h1'
  have hk2 := ((hK _).2 rfl).2
  obtain ⟨⟨c, qs, hc⟩, hw⟩ := h (parcelTy calls) "Parcel" [] (textLook noNumber (parcelConsts calls) parcel) parcel_declares parcel_accepts
    (parcel_supported cfg _)
  obtain ⟨bits, hb, hr⟩ := hw c qs hc parcelVal
    ⟨trivial, ⟨_, parcel_valid display hQ hT hk2 cfg (textLook noNumber (parcelConsts calls) parcel)⟩,
      parcelVal_fit display hQ hT hk2 cfg⟩ []
  refine ⟨Q, T, calls, c, qs, bits, h1, hT, hK, hc, hb, ?_⟩
  have := hr []
  rwa [List.append_nil, List.length_nil, Nat.zero_add] at this

/-! ## A function that calls itself -/

/-- `function uint8 f() { return f(); }` -/
def selfFunc : Src.Func := ⟨.builtin "uint8", "f", .call (.id "f")⟩

/-- `struct Self { function uint8 f() { return f(); } };` -/
def selfStruct : Src.Struct := ⟨"Self", [], [], [], [selfFunc]⟩

/-- The package. -/
def selfText : Src.Package := ⟨none, some ["demo"], [], [.struct selfStruct]⟩

/-- What expressions use of the package, if the function returned `k`. -/
def selfConsts (k : Int) : Constants tenths.F :=
  { withStructs noConstants [selfStruct] with calls := fun _ _ _ => some (.int k) }

-- The text shows the cycle.
example : ¬ NoCycle (FuncUses selfText.directives) := fun h =>
  h ("Self", "f") (.single ⟨_, List.mem_singleton.2 rfl, selfStruct, rfl, rfl, rfl, selfFunc, by simp [selfStruct], selfFunc,
    by simp [selfStruct], rfl, rfl, by simp [selfFunc, usedNames]⟩)

-- The hypotheses of C95_self_call: the function may return every number.
example (cfg : Cfg) (build : Mode) (display : tenths.F → List Char) : ∃ Q T,
    visitPackage (floatText tenths noRound display) selfText = .ok Q ∧ TableUnder (fileSymbols Q) T ∧
    ∀ k : Int, 0 ≤ k → k < 256 → Called .debug build noNumber T (selfConsts k) "Self" "f" ⟨[], []⟩ (.int k) := by
  have hn : ((selfText.directives.filterMap declares).map Prod.fst).Nodup := by decide
  have hw : WrittenOut selfText selfText :=
    ⟨selfText.directives, .cons (.struct .nil .nil (.cons ⟨_, .builtin, rfl⟩ .nil)) .nil, rfl⟩
  obtain ⟨Q, hQ⟩ : ∃ Q, visitPackage (floatText tenths noRound display) selfText = .ok Q := ⟨_, by with_unfolding_all rfl⟩
  obtain ⟨Q', hQ', h⟩ := C86_same_symbols _ hQ hn hw
  refine ⟨Q, _, hQ, (h _).2 rfl, fun k h0 h1 => ?_⟩
  have hs : ConstsStand noRound selfText.directives (withStructs (noConstants (F := tenths.F)) [selfStruct]) := {
    enums := no_enums rfl
    masks := no_masks rfl
    objects := withStructs_stand (ds := selfText.directives) _ hn
    methods := methods_named (ds := selfText.directives) (by decide)
    declared := fun c hc => by simp [constsIn, selfText] at hc
    others := fun _ _ => ⟨rfl, rfl⟩ }
  exact C95_self_call (cfg := cfg) (K := selfConsts k) (D := .struct selfStruct) (s := selfStruct) (f := selfFunc)
    (R := .int ⟨false, 8⟩) (z := .num .uint8) (known := ["f"]) (ps := []) (vs := [])
    (stand_good (stand_calls _ hs)) hQ hn hw ((h _).2 rfl) (by simp [selfText]) rfl ⟨rfl, by simp [selfStruct], by decide⟩
    (by simp [selfStruct]) (.call (by decide)) rfl rfl trivial (fun j f v z hf => by simp [selfStruct] at hf)
    (.int ⟨_, rfl, by simp [IntTy.Contains, IntTy.min, IntTy.max]; omega⟩)
    ⟨rfl, .int ⟨false, 8⟩, rfl, .inr (.inl ⟨trivial, trivial⟩)⟩ rfl

end Zs
