import Verif.SourceSpec
import Verif.EmitSchema
import Verif.PropsValue

/-!
# Fields with expressions of the schema text: the emitted field stands for the field of the schema
-/

namespace Zs

open Spec Emit

variable {fo : FloatOps} {O : Type} {cfg : Cfg} {md : Mode} {sc : TScope} {build : Mode}
  {look : Env → World fo.F O}

theorem isType_mono {E E' : Env → Prop} (h : ∀ env, E' env → E env) {ref : RefTy} {ops : TypeOps}
    (ht : IsType cfg E ref ops) : IsType cfg E' ref ops := by
  cases ht with
  | compound c n => exact .compound c n
  | scalar hs =>
    refine .scalar ?_
    cases hs with
    | bits _ hn => exact .bits _ hn
    | ints _ hn => exact .ints _ hn
    | bitsDyn l len h1 h2 => exact .bitsDyn l len (fun env he => h1 env (h env he)) fun hc env he => h2 hc env (h env he)
    | intsDyn l len h1 h2 => exact .intsDyn l len (fun env he => h1 env (h env he)) fun hc env he => h2 hc env (h env he)
    | _ => constructor

theorem runs_one {α : Type} {Γ : RScope fo.F} {x : RExpr fo.F} {t : RTy} {datum : α → Datum fo.F O}
    {r : Env → Res α} (h : Runs look Γ build x (· = t) datum r) {env : Env} {v : α}
    (hv : ∀ o, Evals (look env) Γ build x t o ↔ o = .ok (datum v)) : r env = .ok v := by
  refine h env (.ok v) fun o => ?_
  rw [show (Res.ok v).bind (fun v => .ok (datum v)) = .ok (datum v) from rfl, ← hv o]
  exact ⟨fun ⟨_, ht, h⟩ => ht ▸ h, fun h => ⟨t, rfl, h⟩⟩

theorem condition_eq {w : World fo.F O} {e : Expr fo.F} {v : Datum fo.F O} {b : Bool}
    (hv : means w e = some v) (hb : truth v = some b) : condition w e = b := by
  simp [condition, hv, hb]

theorem lengthValue_eq {w : World fo.F O} {e : Expr fo.F} {n : Nat}
    (hv : means w e = some (.int n)) : lengthValue w e = n := by
  simp [lengthValue, hv]

theorem bitsCode_eq (e : Expr fo.F) : bitsCode md sc e =
    if widthCast md sc e = true then .cast (.paren (code md sc e)) "u8" else code md sc e := by
  unfold bitsCode widthCast
  cases e.nativeOf md sc with
  | none => rfl
  | some r => by_cases h : r.name = .uint8 <;> simp [h]

/-- The width of `bit<e>` and `int<e>`. -/
theorem runs_width (hord : Ordinary sc) {e : Expr fo.F} {l : LenExpr}
    (hl : RunsWidth md sc build look e l)
    (ht : Typed (rscope sc) (bitsCode md sc e) (.int ⟨false, 8⟩)) {env : Env}
    (hc : Conforms (look env) (rscope sc)) {n : Nat} (hv : means (look env) e = some (.int n))
    (hf : ∀ s, Infers (rscope sc) (code md sc e) (.int ⟨false, 8⟩) s → Fits md sc (look env) e s) :
    l.eval env = .ok n := by
  obtain ⟨hcast, hrun⟩ := hl
  refine hrun env (.ok n) fun o => ?_
  rw [show (Res.ok n).bind (fun v : Nat => .ok (.int v : Datum fo.F O)) = .ok (.int n) from rfl]
  rw [bitsCode_eq, ← hcast] at ht
  have hg : ∀ t, Infers (rscope sc) (code md sc e) (.int ⟨false, 8⟩) t →
      ∀ o, Evals (look env) (rscope sc) build (code md sc e) t o ↔ o = .ok (.int n) := fun t hi =>
    (value_main hord hc build e t _ hi.1 hv (hf t hi)).1
  cases hb : l.cast with
  | true =>
    rw [hb] at ht
    simp only [if_true, Typed] at ht ⊢
    constructor
    · rintro ⟨t, ⟨hi, -⟩, h⟩
      exact (hg t hi o).1 h
    · intro h
      obtain ⟨-, s, hs, hcs⟩ := ht
      obtain ⟨u, hu, hcu⟩ := infers_cast hs hcs
      exact ⟨u, ⟨hu, hcu⟩, (hg u hu o).2 h⟩
  | false =>
    rw [hb] at ht
    simp only [Bool.false_eq_true, if_false] at ht ⊢
    constructor
    · rintro ⟨t, rfl, h⟩
      exact (hg _ (infers_target ht) o).1 h
    · intro h
      exact ⟨_, rfl, (hg _ (infers_target ht) o).2 h⟩

theorem argument_runs (hord : Ordinary sc) {w : World fo.F O} (hc : Conforms w (rscope sc)) {e : Expr fo.F}
    {p : ParamTy} {v : Datum fo.F O} (hp : p.Has v)
    (ht : Typed (rscope sc) (argumentCode md sc p.ty e) p.rust) (hv : means w e = some v)
    (hf : ∀ s, Infers (rscope sc) (code md sc e) p.rust s → Fits md sc w e s) :
    ∀ o, Evals w (rscope sc) build (argumentCode md sc p.ty e) p.rust o ↔ o = .ok (id v) := by
  cases p with
  | num n =>
    cases v <;> try exact hp.elim
    exact C70_argument_partial hord hc build e n _ hp ht hv hf
  | bool => exact C70_argument hord hc build e _ (.inl rfl) _ rfl v ht hv hf
  | string => exact C70_argument hord hc build e _ (.inr (.inl rfl)) _ rfl v ht hv hf
  | enum id base ks => exact C70_argument hord hc build e _ (.inr (.inr ⟨_, _, rfl⟩)) _ rfl v ht hv hf

theorem runs_args (hord : Ordinary sc) {E : Env → Prop} : ∀ {es : List (ParamTy × Expr fo.F)} {as : List Arg},
    RunsArgs md sc build look es as →
    (∀ p e, (p, e) ∈ es → Typed (rscope sc) (argumentCode md sc p.ty e) p.rust) →
    (∀ env, E env → Conforms (look env) (rscope sc)) →
    (∀ env, E env → ∀ p e, (p, e) ∈ es → ∃ v, p.Has v ∧ means (look env) e = some v ∧
      ∀ s, Infers (rscope sc) (code md sc e) p.rust s → Fits md sc (look env) e s) →
    AreArgs E as (es.map fun a env _ => argumentValue (look env) a.1 a.2)
  | [], [], _, _, _, _ => trivial
  | [], _ :: _, h, _, _, _ => h.elim
  | _ :: _, [], h, _, _, _ => h.elim
  | (p, e) :: es, a :: as, h, ht, hc, hE => by
    obtain ⟨-, ⟨r, hr, hrun⟩, hrest⟩ := h
    refine ⟨fun env i he => ?_, fun _ _ _ _ _ => rfl,
      runs_args hord hrest (fun p e hm => ht p e (List.mem_cons_of_mem _ hm)) hc
        fun env he p e hm => hE env he p e (List.mem_cons_of_mem _ hm)⟩
    obtain ⟨n, hn, hv, hf⟩ := hE env he p e (List.mem_cons_self ..)
    have := runs_one hrun (argument_runs hord (hc env he) hn (ht p e (List.mem_cons_self ..)) hv hf)
    rw [hr, this]
    simp only [argumentValue, hv]
    rfl

theorem runs_usesIndex : ∀ {es : List (ParamTy × Expr fo.F)} {as : List Arg},
    RunsArgs md sc build look es as → ∀ a ∈ as, a.usesIndex = false
  | [], [], _ => by simp
  | [], _ :: _, h => h.elim
  | _ :: _, [], h => h.elim
  | _ :: es, _ :: as, h => by
    simp only [List.mem_cons, forall_eq_or_imp]
    exact ⟨h.1, runs_usesIndex h.2.2⟩

theorem present_of {f : Modifiers fo.F} {env : Env}
    (h : ∀ c, (f.info look).clause = some c → c env = true) : f.Present look env := fun e he =>
  h (fun env => condition (look env) e) (by simp only [Modifiers.info, he, Option.map_some])

/-- The type of a field, as the generator sees it, is the one of the schema. -/
theorem runs_type (hord : Ordinary sc) {f : Written fo.F} {ref : RefTy} (hacc : f.Accepts md sc)
    (hty : RunsType cfg md sc build look f.ty ref) (ops : TypeOps) :
    IsType cfg (InFront (f.InRange md sc look) ⟨f.info look, ops⟩) ref ((f.type look).ops cfg) := by
  have hE : ∀ env, InFront (f.InRange md sc look) ⟨f.info look, ops⟩ env →
      ∀ e, f.ty = .bit e ∨ f.ty = .int e → Conforms (look env) (rscope sc) ∧
        ∃ n : Nat, n < 256 ∧ means (look env) e = some (.int n) ∧
        ∀ s, Infers (rscope sc) (code md sc e) (.int ⟨false, 8⟩) s → Fits md sc (look env) e s := by
    intro env he e hfe
    refine ⟨he.1.conforms, he.1.fitting.width (fun ha => present_of (he.2 ?_)) e hfe⟩
    show Option.map _ f.array = none
    rw [ha]; rfl
  cases hf : f.ty with
  | plain t =>
    rw [hf] at hty
    simp only [Written.type, hf]
    exact isType_mono (fun _ _ => trivial) hty
  | bit e =>
    rw [hf] at hty
    obtain ⟨l, hl, hrun⟩ := hty
    simp only [Written.type, hf, hl, Ty.ops]
    refine .scalar (.bitsDyn _ _ (fun env he => ?_) fun _ env he => ?_)
    · obtain ⟨hc, n, -, hv, hfit⟩ := hE env he e (.inl hf)
      rw [lengthValue_eq hv]
      exact runs_width hord hrun (hacc.width e (.inl hf)) hc hv hfit
    · obtain ⟨-, n, hn, hv, -⟩ := hE env he e (.inl hf)
      rw [lengthValue_eq hv]
      exact hn
  | int e =>
    rw [hf] at hty
    obtain ⟨l, hl, hrun⟩ := hty
    simp only [Written.type, hf, hl, Ty.ops]
    refine .scalar (.intsDyn _ _ (fun env he => ?_) fun _ env he => ?_)
    · obtain ⟨hc, n, -, hv, hfit⟩ := hE env he e (.inr hf)
      rw [lengthValue_eq hv]
      exact runs_width hord hrun (hacc.width e (.inr hf)) hc hv hfit
    · obtain ⟨-, n, hn, hv, -⟩ := hE env he e (.inr hf)
      rw [lengthValue_eq hv]
      exact hn

/-- The field the generator looks at stands for a field of the schema, if its type does. -/
theorem emitted_denotes_of (hord : Ordinary sc) {f : Written fo.F} {g : Field} {ops : TypeOps}
    (hacc : f.Accepts md sc) (hem : EmittedMods md sc build look f.toModifiers g)
    (hty : IsType cfg (InFront (f.InRange md sc look) ⟨f.info look, ops⟩) g.ty ops) :
    Denotes cfg (f.InRange md sc look) g ⟨f.info look, ops⟩ where
  ty := hty
  optional := hem.optional
  clause := by
    have hcl := hem.clause
    show IsExpr _ g.clause (f.clause.map _)
    cases hf : f.clause with
    | none => cases hg : g.clause with
      | none => trivial
      | some c => rw [hf, hg] at hcl; exact hcl.elim
    | some e => cases hg : g.clause with
      | none => rw [hf, hg] at hcl; exact hcl.elim
      | some c =>
        rw [hf, hg] at hcl
        intro env he
        obtain ⟨v, b, hv, hb, hfit⟩ := he.fitting.clause e hf
        show c env = .ok (condition (look env) e)
        rw [condition_eq hv hb]
        exact runs_one hcl (C70_condition_partial hord he.conforms build e v b (hacc.clause e hf) hv hb hfit)
  alignment := hem.alignment
  offset := hem.offset
  array := by
    have har := hem.array
    show IsArray _ g.array (f.array.map _)
    cases hf : f.array with
    | none => cases hg : g.array with
      | none => trivial
      | some c => rw [hf, hg] at har; exact har.elim
    | some a =>
      obtain ⟨p, e⟩ := a
      cases hg : g.array with
      | none => rw [hf, hg] at har; cases e <;> exact har.elim
      | some a =>
        rw [hf, hg] at har
        cases e with
        | none =>
          refine ⟨har.1, ?_⟩
          rw [har.2]
          trivial
        | some e =>
          obtain ⟨hp, l, hl, hrun⟩ := har
          refine ⟨hp, ?_⟩
          rw [hl]
          intro env he
          obtain ⟨n, hn, hv, hfit⟩ := he.fitting.length p e hf
          have ht := hacc.length p e hf
          simp only [lengthCode, Typed] at ht
          obtain ⟨-, s, hs, hcs⟩ := ht
          show l env = .ok (lengthValue (look env) e)
          rw [lengthValue_eq hv]
          exact runs_one hrun (C70_length_partial hord he.conforms build e n hn s hs hcs hv hfit)
  args := runs_args hord hem.args hacc.args (fun env he => he.1.conforms)
    fun env he => he.1.fitting.args (present_of he.2)
  isOffsetField := hem.isOffsetField
  arity := hem.arity
  index _ := runs_usesIndex hem.args

/-- The field the generator looks at stands for the field of the schema. -/
theorem emitted_denotes (hord : Ordinary sc) {f : Written fo.F} {g : Field} (hacc : f.Accepts md sc)
    (hem : EmittedFor cfg md sc build look f g) :
    Denotes cfg (f.InRange md sc look) g ⟨f.info look, (f.type look).ops cfg⟩ :=
  emitted_denotes_of hord hacc hem.toEmittedMods (runs_type hord hacc hem.ty _)

theorem denotes_mono {E E' : Env → Prop} (h : ∀ env, E' env → E env) {g : Field} {f : FieldOps}
    (hd : Denotes cfg E g f) : Denotes cfg E' g f where
  ty := isType_mono (fun env he => ⟨h env he.1, he.2⟩) hd.ty
  optional := hd.optional
  clause := by
    have := hd.clause
    cases h1 : g.clause <;> cases h2 : f.info.clause <;> rw [h1, h2] at this <;>
      first | trivial | exact this.elim | exact fun env he => this env (h env he)
  alignment := hd.alignment
  offset := hd.offset
  array := by
    have := hd.array
    cases h1 : g.array with
    | none => cases h2 : f.info.array <;> rw [h1, h2] at this <;> first | trivial | exact this.elim
    | some a => cases h2 : f.info.array with
      | none => rw [h1, h2] at this; exact this.elim
      | some b =>
        rw [h1, h2] at this
        refine ⟨this.1, ?_⟩
        have := this.2
        cases h1 : a.length <;> cases h2 : b.length <;> rw [h1, h2] at this <;>
          first | trivial | exact this.elim | exact fun env he => this env (h env he)
  args := by
    have : ∀ {as : List Arg} {bs : List (Env → Nat → Val)}, AreArgs (Inside E f) as bs →
        AreArgs (Inside E' f) as bs := by
      intro as
      induction as with
      | nil => intro bs hb; cases bs <;> first | trivial | exact hb.elim
      | cons a as ih =>
        intro bs hb
        cases bs with
        | nil => exact hb.elim
        | cons b bs =>
          exact ⟨fun env i he => hb.1 env i ⟨h env he.1, he.2⟩,
            fun hu env i j he => hb.2.1 hu env i j ⟨h env he.1, he.2⟩, ih hb.2.2⟩
    exact this hd.args
  isOffsetField := hd.isOffsetField
  arity := hd.arity
  index := hd.index

/-- All fields of a structure or union. -/
theorem emitted_all (hord : Ordinary sc) (all : List (Written fo.F)) :
    ∀ {fs : List (Written fo.F)} {gs : List Field} {i : Nat}, (∀ j, fs[j]? = all[i + j]?) →
    (∀ f ∈ fs, f.Accepts md sc) → EmittedAll cfg md sc build look fs gs →
    DenoteAll cfg (RangeOf md sc look all) i gs ((meaning look fs).ops cfg)
  | [], [], _, _, _, _ => by simp [meaning, Fields.ops, DenoteAll]
  | [], _ :: _, _, _, _, h => h.elim
  | _ :: _, [], _, _, _, h => h.elim
  | f :: fs, g :: gs, i, hi, hacc, h => by
    simp only [meaning, Fields.ops, DenoteAll]
    refine ⟨denotes_mono (fun env he => he f ?_) (emitted_denotes hord (hacc f (List.mem_cons_self ..)) h.1),
      emitted_all hord all (fun j => ?_) (fun f hf => hacc f (List.mem_cons_of_mem _ hf)) h.2⟩
    · have := hi (j + 1)
      rw [List.getElem?_cons_succ] at this
      rw [this]
      congr 1
      omega
    · have := hi 0
      simpa using this.symm

/-- All cases of a choice. -/
theorem emitted_cases (hord : Ordinary sc) (all : List (Written fo.F)) :
    ∀ {fs : List (List Val × Option (Written fo.F))} {cs : List Case} {i : Nat},
    (∀ j, (fs.filterMap Prod.snd)[j]? = all[i + j]?) →
    (∀ f ∈ fs.filterMap Prod.snd, f.Accepts md sc) → EmittedCases cfg md sc build look fs cs →
    DenoteCases cfg (RangeOf md sc look all) i cs ((caseMeaning look fs).ops cfg)
  | [], [], _, _, _, _ => by simp [caseMeaning, Cases.ops, DenoteCases]
  | [], _ :: _, _, _, _, h => h.elim
  | _ :: _, [], _, _, _, h => h.elim
  | (labels, none) :: fs, c :: cs, i, hi, hacc, h => by
    obtain ⟨hl, hf, hrest⟩ := h
    simp only [caseMeaning, Cases.ops, DenoteCases]
    refine ⟨hl, ?_⟩
    cases hc : c.field with
    | some g => rw [hc] at hf; exact hf.elim
    | none => exact emitted_cases hord all (by simpa using hi) (by simpa using hacc) hrest
  | (labels, some f) :: fs, c :: cs, i, hi, hacc, h => by
    obtain ⟨hl, hf, hrest⟩ := h
    simp only [caseMeaning, Cases.ops, DenoteCases]
    refine ⟨hl, ?_⟩
    have hcons : ((labels, some f) :: fs).filterMap Prod.snd = f :: fs.filterMap Prod.snd := rfl
    rw [hcons] at hi hacc
    cases hc : c.field with
    | none => rw [hc] at hf; exact hf.elim
    | some g =>
      rw [hc] at hf
      refine ⟨denotes_mono (fun env he => he f ?_) (emitted_denotes hord (hacc f (List.mem_cons_self ..)) hf),
        emitted_cases hord all (fun j => ?_) (fun f hf => hacc f (List.mem_cons_of_mem _ hf)) hrest⟩
      · have := hi (j + 1)
        rw [List.getElem?_cons_succ] at this
        rw [this]
        congr 1
        omega
      · have := hi 0
        simpa using this.symm

end Zs
