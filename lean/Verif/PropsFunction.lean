import Verif.Function
import Verif.MethodLemmas
import Verif.PropsBitmask

/-!
# C93: functions in expressions
-/

namespace Zs

open Src Ast Spec Emit

variable {fo : FloatOps} {K K' : Constants fo.F} {round : List Char → fo.F} {display : fo.F → List Char}
variable {float : Val → fo.F} {cfg : Cfg} {md build : Mode} {esc : EScope fo.F}
variable {P P' : Src.Package} {Q : Ast.Package fo.F} {T : Map (Symbol fo.F)}

/-! ## What methods return -/

/-- The parameters, fields and functions of a type. -/
def Spec.bodyOf : Src.Directive → Option Src.Struct
  | .struct s => some s
  | .union u => some (Union.shape u)
  | .choice c => some (Choice.shape c)
  | _ => none

/-- What a function with the return type `z` returns if its expression has the value `v`: of an item of an enumeration
its number. -/
inductive Spec.ReturnsAs {F : Type} : ZTy → Datum F Object → Datum F Object → Prop
  | int {n k} : (numTy n).Holds k → ReturnsAs (.num n) (.int k) (.int k)
  | item {n k} : (numTy n).Holds k → ReturnsAs (.num n) (.enum k) (.int k)
  | bool {b} : ReturnsAs .bool (.bool b) (.bool b)
  | string {s} : ReturnsAs .string (.str s) (.str s)

theorem visited_body {fl : FloatText} {D : Src.Directive} {y : Ast.Symbol fl.F} {s : Src.Struct} (h : Visited fl D y)
    (hs : bodyOf D = some s) : ∃ d, y.withFunctions = some d ∧ visitStruct fl s = .ok d := by
  cases h with
  | struct h => cases hs; exact ⟨_, rfl, h⟩
  | union h => cases hs; exact ⟨_, rfl, visit_union h⟩
  | choice h => cases hs; exact ⟨_, rfl, visit_choice h⟩
  | _ => cases hs

theorem body_name {D : Src.Directive} {s : Src.Struct} (hs : bodyOf D = some s) :
    (declares D).map Prod.fst = some s.name := by
  cases D <;> cases hs <;> rfl

theorem returns_code {z : ZTy} {v u : Datum fo.F Object} (h : ReturnsAs z v u) {sc : TScope} {w : World fo.F Object}
    (hord : Ordinary sc) (hc : Conforms w (rscope sc)) {x : Expr fo.F} {R : RTy} (hv : means w x = some v)
    (hR : valueTy z = some R) (ht : Typed (rscope sc) (functionCode md sc z x) R)
    (hf : ∀ t, Infers (rscope sc) (code md sc x) R t → Fits md sc w x t) (o : Res (Datum fo.F Object)) :
    Evals w (rscope sc) build (functionCode md sc z x) R o ↔ o = .ok u := by
  cases h with
  | int hk => cases hR; exact C70_function_partial hord hc build x _ _ _ hv (.inl rfl) hk ht hf o
  | item hk => cases hR; exact C70_function_partial hord hc build x _ _ _ hv (.inr rfl) hk ht hf o
  | bool => cases hR; exact C70_function_other_partial hord hc build x _ _ (.inl ⟨rfl, rfl⟩) _ hv ht hf o
  | string => cases hR; exact C70_function_other_partial hord hc build x _ _ (.inr ⟨rfl, rfl⟩) _ hv ht hf o

theorem returnsAs_returns {z : ZTy} {v u : Datum fo.F Object} (h : ReturnsAs z v u) : returns z u = true := by
  have key : ∀ n k, (numTy n).Holds k → returns (F := fo.F) (.num n) (.int k) = true := by
    intro n k ⟨a, ha, hk⟩
    cases n <;> cases ha <;> exact decide_eq_true hk
  cases h with
  | int h => exact key _ _ h
  | item h => exact key _ _ h
  | bool => rfl
  | string => rfl

theorem func_found {s : Src.Struct}
    (hn : (s.params.map Src.Param.name ++ (s.fields.map fun f => f.typeId.name) ++ s.functions.map Src.Func.name).Nodup)
    {f : Src.Func} (hf : f ∈ s.functions) : funcNamed s f.name = some f := by
  have hnd := (List.nodup_append.1 hn).2.1
  unfold funcNamed
  generalize s.functions = l at hf hnd
  induction l with
  | nil => cases hf
  | cons a l ih =>
    simp only [List.map_cons, List.nodup_cons] at hnd
    rcases List.mem_cons.1 hf with rfl | hf
    · simp
    · have : a.name ≠ f.name := fun h => hnd.1 (h ▸ List.mem_map_of_mem hf)
      rw [List.find?_cons_of_neg (by simpa using this)]
      exact ih hf hnd.2

/-- What a method returns, from the text of its function. -/
theorem called_iff (hQ : visitPackage (floatText fo round display) P = .ok Q)
    (hn : ((P.directives.filterMap declares).map Prod.fst).Nodup) (hw : WrittenOut P P')
    (hT : TableUnder (fileSymbols Q) T)
    {D : Src.Directive} (hD : D ∈ P'.directives) {s : Src.Struct} (hs : bodyOf D = some s) (hh : Heads K.enums s)
    {f : Src.Func} (hf : f ∈ s.functions) {known : List String} {x : Expr fo.F} (hx : Stands round known f.body x)
    {z : ZTy} (hz : typeIn K.types f.type = some z) {R : RTy} (hR : valueTy z = some R) (env : Env)
    (u : Datum fo.F Object) :
    Called md build float T K s.name f.name env u ↔
      Typed (rscope (textScope K s)) (functionCode md (textScope K s) z x) R ∧
      ∀ o, Evals (textLook float K s env) (rscope (textScope K s)) build (functionCode md (textScope K s) z x) R o ↔
        o = .ok u := by
  obtain ⟨Q', hQ', h⟩ := C86_same_symbols _ hQ hn hw
  obtain rfl := (h T).1 hT
  obtain ⟨y, hy, hvis⟩ := symbol_found hQ' (names_out hn hw) hD (body_name hs)
  obtain ⟨d, hd, hvd⟩ := visited_body hvis hs
  have hfv := func_visit hvd f.name
  rw [func_found hh.names hf] at hfv
  cases hg : d.functions.find? (fun g => g.name = f.name) with
  | none => rw [hg] at hfv; exact hfv.elim
  | some g =>
    rw [hg] at hfv
    obtain ⟨-, hg2, hg3⟩ := visitFunc_parts hfv
    have hgx := expr_visit hx _ hg3
    have hgz : g.returnType.zty K.names.types = some z := by
      rw [names_types, zty_visit hg2]
      exact hz
    rw [← scope_visit hvd hh.names, ← look_visit hvd float hh]
    constructor
    · rintro ⟨y', d', g', x', z', R', h1, h2, h3, h4, h5, h6, h7⟩
      cases hy.symm.trans h1
      cases hd.symm.trans h2
      cases hg.symm.trans h3
      cases hgx.symm.trans h4
      cases hgz.symm.trans h5
      cases hR.symm.trans h6
      exact h7
    · exact fun h => ⟨y, d, g, x, z, R, hy, hd, hg, hgx, hgz, hR, h⟩

theorem call_means {s : Src.Struct} (hh : Heads K.enums s) {f : Src.Func} (hf : f ∈ s.functions) {z : ZTy}
    (hz : typeIn K.types f.type = some z) {env : Env} {u : Datum fo.F Object} (hu : returns z u = true)
    (hc : K.calls s.name f.name env = some u) : means (textLook float K s env) (.call (.ident f.name)) = some u := by
  simp only [means, textLook, func_no_member K.types hh.names (func_found hh.names hf), func_found hh.names hf,
    Option.bind_some, hz, hc]
  simp [hu]

theorem call_value (hK : K.Good) (hQ : visitPackage (floatText fo round display) P = .ok Q)
    (hn : ((P.directives.filterMap declares).map Prod.fst).Nodup) (hw : WrittenOut P P')
    (hT : TableUnder (fileSymbols Q) T) (hcs : CallsSeen md build float T K)
    {D : Src.Directive} (hD : D ∈ P'.directives) {s : Src.Struct} (hs : bodyOf D = some s) (hh : Heads K.enums s)
    {f : Src.Func} (hf : f ∈ s.functions) {known : List String} {x : Expr fo.F} (hx : Stands round known f.body x)
    {z : ZTy} (hz : typeIn K.types f.type = some z) {R : RTy} (hR : valueTy z = some R)
    {env : Env} (hc : Conforms (textLook float K s env) (rscope (textScope K s)))
    {v u : Datum fo.F Object} (hv : means (textLook float K s env) x = some v) (hu : ReturnsAs z v u)
    (hty : Typed (rscope (textScope K s)) (functionCode md (textScope K s) z x) R)
    (hfit : ∀ t, Infers (rscope (textScope K s)) (code md (textScope K s) x) R t →
      Fits md (textScope K s) (textLook float K s env) x t) :
    means (textLook float K s env) (.call (.ident f.name)) = some u :=
  call_means hh hf hz (returnsAs_returns hu) ((hcs _ _ _ _).2 ((called_iff hQ hn hw hT hD hs hh hf hx hz hR env u).2
    ⟨hty, returns_code hu (textScope_ordinary hK s) hc hv hR hty hfit⟩))

/-- **C93 (partial)** In the expressions of a structure, union or choice, a call of a function is the value of the expression
of the function, if the parameters `ps` are valid and the fields `vs` that are already written or read are in the ranges of
their Rust types.  Missing: values out of the range of the return type, results that are too large in between (C70), floats,
functions of unions and choices that use fields. -/
theorem C93_call_partial (hK : K.Good) (hQ : visitPackage (floatText fo round display) P = .ok Q)
    (hn : ((P.directives.filterMap declares).map Prod.fst).Nodup) (hw : WrittenOut P P')
    (hT : TableUnder (fileSymbols Q) T) (hcs : CallsSeen md build float T K)
    {D : Src.Directive} (hD : D ∈ P'.directives) {s : Src.Struct} (hs : bodyOf D = some s) (hh : Heads K.enums s)
    {f : Src.Func} (hf : f ∈ s.functions) {known : List String} {x : Expr fo.F} (hx : Stands round known f.body x)
    {z : ZTy} (hz : typeIn K.types f.type = some z) {R : RTy} (hR : valueTy z = some R)
    {ps vs : List Val} (hps : ParamsValid cfg K.enums s.params ps) (hvs : FieldsShaped s.fields vs)
    {v u : Datum fo.F Object} (hv : means (textLook float K s ⟨ps, vs⟩) x = some v) (hu : ReturnsAs z v u)
    (hty : Typed (rscope (textScope K s)) (functionCode md (textScope K s) z x) R)
    (hfit : ∀ t, Infers (rscope (textScope K s)) (code md (textScope K s) x) R t →
      Fits md (textScope K s) (textLook float K s ⟨ps, vs⟩) x t) :
    means (textLook float K s ⟨ps, vs⟩) (.call (.ident f.name)) = some u :=
  call_value hK hQ hn hw hT hcs hD hs hh hf hx hz hR
    (good_conforms hK (fun j p v z h1 h2 ⟨_, _, hz⟩ => params_good hps j p v z h1 h2 hz) hvs) hv hu hty hfit

/-- **C93 (partial)** The same for all valid objects; `i`: the fields that are already written or read.  Missing: as above. -/
theorem C93_valid_partial (hK : K.Good) (hQ : visitPackage (floatText fo round display) P = .ok Q)
    (hn : ((P.directives.filterMap declares).map Prod.fst).Nodup) (hw : WrittenOut P P')
    (hT : TableUnder (fileSymbols Q) T) (hcs : CallsSeen md build float T K)
    {s : Src.Struct} (hs : .struct s ∈ P'.directives) (hh : Heads K.enums s)
    {f : Src.Func} (hf : f ∈ s.functions) {known : List String} {x : Expr fo.F} (hx : Stands round known f.body x)
    {z : ZTy} (hz : typeIn K.types f.type = some z) {R : RTy} (hR : valueTy z = some R)
    {t : SourceTy fo.F Object} {look : Env → World fo.F Object} (ht : t.Declares round float K P'.directives s.name s.params)
    (hsup : (t.meaning look).Supported cfg) {env' : Env} {ps vs : List Val}
    (hval : (t.meaning look).Valid cfg env' (.obj ps vs)) (hps : ParamsValid cfg K.enums s.params ps) (i : Nat)
    {v u : Datum fo.F Object} (hv : means (textLook float K s ⟨ps, vs.take i⟩) x = some v) (hu : ReturnsAs z v u)
    (hty : Typed (rscope (textScope K s)) (functionCode md (textScope K s) z x) R)
    (hfit : ∀ t, Infers (rscope (textScope K s)) (code md (textScope K s) x) R t →
      Fits md (textScope K s) (textLook float K s ⟨ps, vs.take i⟩) x t) :
    means (textLook float K s ⟨ps, vs.take i⟩) (.call (.ident f.name)) = some u := by
  have hshape := valid_shaped (names_out hn hw) hs ht hsup hval
  rw [← List.take_append_drop i vs] at hshape
  exact call_value hK hQ hn hw hT hcs hs rfl hh hf hx hz hR
    (good_conforms hK (fun j p v z h1 h2 ⟨_, _, hz⟩ => params_good hps j p v z h1 h2 hz) hshape.pre) hv hu hty hfit

theorem rust_wraps {m : NumName} {i : IntTy} (h : m.rustInt = some i) (z : Int) : i.Contains (i.wrap z) := by
  cases m <;> simp only [NumName.rustInt, Option.some.injEq, reduceCtorEq] at h <;> subst h <;>
    simp only [IntTy.Contains, IntTy.wrap, IntTy.min, IntTy.max] <;> simp <;> omega

/-- C93 is violated by every function that returns the sum, difference or product of two integer fields of its return type
that is out of the range of that type, as `n * n` for an `uint8` with the value 20: in debug builds the call panics, in release
builds expressions that call the function go on with another number. -/
theorem C93_overflow_violated (hK : K.Good) (hQ : visitPackage (floatText fo round display) P = .ok Q)
    (hn : ((P.directives.filterMap declares).map Prod.fst).Nodup) (hw : WrittenOut P P')
    (hT : TableUnder (fileSymbols Q) T)
    {D : Src.Directive} (hD : D ∈ P'.directives) {s : Src.Struct} (hs : bodyOf D = some s) (hh : Heads K.enums s)
    {f : Src.Func} (hf : f ∈ s.functions) {known : List String} {op : ArithOp} (hop : op = .add ∨ op = .sub ∨ op = .mul)
    {x y : String} (hx : Stands round known f.body (.arith op (.ident x) (.ident y) : Expr fo.F))
    {m : NumName} (hz : typeIn K.types f.type = some (.num m)) {i : IntTy} (hm : m.rustInt = some i)
    (h1 : NumberField (textScope K s) x m) (h2 : NumberField (textScope K s) y m)
    {ps vs : List Val} (hps : ParamsValid cfg K.enums s.params ps) (hvs : FieldsShaped s.fields vs) {a b z : Int}
    (ha : means (textLook float K s ⟨ps, vs⟩) (.ident x) = some (.int a))
    (hb : means (textLook float K s ⟨ps, vs⟩) (.ident y) = some (.int b))
    (hr : ArithOp.result op a b = some z) (hiz : ¬ i.Contains z) :
    means (textLook float K s ⟨ps, vs⟩) (.arith op (.ident x) (.ident y)) = some (.int z) ∧
    (CallsSeen md .debug float T K → means (textLook float K s ⟨ps, vs⟩) (.call (.ident f.name)) = none) ∧
    (CallsSeen md .release float T K →
      means (textLook float K s ⟨ps, vs⟩) (.call (.ident f.name)) = some (.int (i.wrap z))) ∧ i.wrap z ≠ z := by
  have hc : Conforms (textLook float K s ⟨ps, vs⟩) (rscope (textScope K s)) :=
    good_conforms hK (fun j p v z h1 h2 ⟨_, _, hz⟩ => params_good hps j p v z h1 h2 hz) hvs
  have hover := C70_overflow_violated (md := md) hc op hop h1 h2 hm ha hb hr hiz
  have hty := (C70_operation_iff (md := md) hc .debug op h1 h2 hm hm (r := { name := m })
    (by simp [mixInteger, compareNative]) hm ha hb).1
  have hnum : numTy m = .int i := by
    cases m <;> cases hm <;> rfl
  have hprim : primType (ZTy.num m).rustName = some (.int i) := by
    cases m <;> cases hm <;> rfl
  have hcode : functionCode md (textScope K s) (.num m) (.arith op (.ident x) (.ident y) : Expr fo.F) =
      .cast (.paren (code md (textScope K s) (.arith op (.ident x) (.ident y)))) (ZTy.num m).rustName := by
    simp only [functionCode]
  have hR : valueTy (.num m) = some (.int i) := congrArg some hnum
  have htyped : Typed (rscope (textScope K s))
      (functionCode md (textScope K s) (.num m) (.arith op (.ident x) (.ident y) : Expr fo.F)) (.int i) := by
    rw [hcode]
    exact ⟨hprim, .int i, (hty _).2 rfl, .inr (.inl ⟨trivial, trivial⟩)⟩
  have hwrap : (RTy.int i).Holds (i.wrap z) := ⟨i, rustInt_ints hm, rust_wraps hm z⟩
  have hret : returns (F := fo.F) (.num m) (.int (i.wrap z)) = true := by
    simp only [returns, hm]
    exact decide_eq_true (rust_wraps hm z)
  refine ⟨(hover .panic).1, fun hcs => ?_, fun hcs => ?_, (hover .panic).2.2.2⟩
  · have hnone : K.calls s.name f.name ⟨ps, vs⟩ = none := by
      cases hk : K.calls s.name f.name ⟨ps, vs⟩ with
      | none => rfl
      | some u =>
        have := ((called_iff hQ hn hw hT hD hs hh hf hx hz hR _ u).1 ((hcs _ _ _ _).1 hk)).2
        have hu := (this (.ok u)).2 rfl
        rw [hcode] at hu
        obtain ⟨-, t, ht, -, r, hr', hk'⟩ := hu
        obtain rfl := (hty t).1 (infers_paren ht).1
        obtain rfl := ((hover r).2.1).1 hr'
        cases hk'
    simp only [means, textLook, func_no_member K.types hh.names (func_found hh.names hf), func_found hh.names hf,
      Option.bind_some, hz, hnone]
    rfl
  · refine call_means hh hf hz hret ((hcs _ _ _ _).2 ((called_iff hQ hn hw hT hD hs hh hf hx hz hR _ _).2 ⟨htyped, ?_⟩))
    rw [hcode] at htyped ⊢
    refine (computes_cast (.inl rfl) htyped (fun t ht => computes_paren ?_) hwrap).1
    obtain rfl := (hty t).1 (infers_paren ht).1
    exact ⟨fun o => (hover o).2.2.1, hasTy_int.2 hwrap⟩

/-! ## Every package has methods -/

theorem called_unique {n m : String} {env : Env} {v v' : Datum fo.F Object} (h : Called md build float T K n m env v)
    (h' : Called md build float T K n m env v') : v = v' := by
  obtain ⟨y, d, f, e, z, R, h1, h2, h3, h4, h5, h6, -, h8⟩ := h
  obtain ⟨y', d', f', e', z', R', h1', h2', h3', h4', h5', h6', -, h8'⟩ := h'
  cases h1.symm.trans h1'
  cases h2.symm.trans h2'
  cases h3.symm.trans h3'
  cases h4.symm.trans h4'
  cases h5.symm.trans h5'
  cases h6.symm.trans h6'
  have := (h8' (.ok v)).1 ((h8 _).2 rfl)
  cases this
  rfl

/-- The object is in the value. -/
inductive Inside {F : Type} (o : Object) : Datum F Object → Prop
  | self : Inside o (.object o)
  | elem {l : List (Datum F Object)} {x : Datum F Object} : x ∈ l → Inside o x → Inside o (.list l)
  | opt {x : Datum F Object} : Inside o x → Inside o (.opt (some x))

theorem datum_inside {E : String → Option Enumeration} {z : ZTy} {v : Val} {o : Object}
    (h : Inside o (datumOf float E z v)) : z = .compound o.type := by
  unfold datumOf at h
  split at h
  · split at h <;> cases h
  all_goals (cases h; try rfl)

theorem shaped_inside {E : String → Option Enumeration} {y : Symb} {v : Val} {o : Object}
    (h : Inside o (shapedDatum float E y v)) : y.ty = .compound o.type := by
  have list : ∀ u, Inside o (listDatum float E y.ty u) → y.ty = .compound o.type := by
    intro u hu
    unfold listDatum at hu
    split at hu
    · cases hu with
      | elem hx hi =>
        obtain ⟨a, -, rfl⟩ := List.mem_map.1 hx
        exact datum_inside hi
    · cases hu with
      | elem hx _ => cases hx
  unfold shapedDatum at h
  split at h
  · cases h with
    | opt h => exact datum_inside h
  · cases h
  · cases h with
    | opt h => exact list _ h
  · cases h
  · exact list _ h
  · exact datum_inside h

theorem scalar_inside {v : Datum fo.F Object} (h : scalarDatum v = true) {o : Object} : ¬ Inside o v := by
  rintro (_ | _ | _) <;> cases h

theorem returns_scalar {z : ZTy} {v : Datum fo.F Object} (h : returns z v = true) : scalarDatum v = true := by
  cases z <;> cases v <;> first | rfl | cases h

/-- The objects in the expressions of a type are of types that it contains. -/
theorem look_closed (hK : K.Good) (hO : ObjectsSeen T K) {depth : String → Nat}
    (hd : ∀ n y d, T n = some y → y.withFunctions = some d → ∀ x ∈ d.members K, ∀ t sh,
      x.symb = some ⟨.compound t, sh⟩ → depth t < depth n)
    {n : String} {y : Symbol fo.F} {d : Ast.Struct fo.F} (hy : T n = some y) (hyd : y.withFunctions = some d) (env : Env)
    (a : String → String → Env → Option (Datum fo.F Object)) :
    Closed (d.look float { K with calls := a } env) fun v => ∀ o, Inside o v → depth o.type < depth n where
  scalar v h o ho := absurd ho (scalar_inside h)
  name k v h o ho := by
    simp only [Ast.Struct.look] at h
    split at h
    · rename_i m hm
      obtain ⟨z, hz, rfl⟩ := Option.map_eq_some_iff.1 h
      have := shaped_inside ho
      refine hd n y d hy hyd m (List.mem_of_find?_eq_some hm) o.type z.shape ?_
      rw [hz, ← this]
    · split at h
      · cases h
      · replace h : K.value k = some v := h
        refine absurd ho (scalar_inside ?_)
        cases ht : K.ty k with
        | none => rw [hK.none k ht] at h; cases h
        | some z =>
          obtain ⟨u, hu, hz⟩ := hK.value k z ht
          rw [h] at hu
          cases hu
          cases z <;> cases v <;> first | rfl | exact hz.elim
  func k v h o ho := by
    obtain ⟨f, -, h⟩ := Option.bind_eq_some_iff.1 h
    obtain ⟨z, -, h⟩ := Option.bind_eq_some_iff.1 h
    exact absurd ho (scalar_inside (returns_scalar (Option.filter_eq_some_iff.1 h).2))
  item e k v h o ho := by
    simp only [Ast.Struct.look, Constants.item] at h
    split at h
    · obtain ⟨_, -, rfl⟩ := Option.map_eq_some_iff.1 h
      cases ho
    · obtain ⟨_, -, rfl⟩ := Option.map_eq_some_iff.1 h
      cases ho
    · cases h
  index v h := by cases h
  member ob k v hob h o ho := by
    obtain ⟨m, hm, h⟩ := Option.bind_eq_some_iff.1 h
    obtain ⟨z, hz, h⟩ := Option.bind_eq_some_iff.1 h
    split at h
    · cases h
    · rename_i hfun
      cases h
      have hc := shaped_inside ho
      refine Nat.lt_trans ?_ (hob ob .self)
      replace hm : (K.objects ob.type).bind (fun ms => ms.find? fun m => m.name = k) = some m := hm
      rw [hO ob.type] at hm
      split at hm
      · rename_i d' hd'
        rcases List.mem_append.1 (List.mem_of_find?_eq_some hm) with hmem | hmem
        · refine hd _ _ d' hd' rfl m hmem o.type z.shape ?_
          rw [hz, ← hc]
        · obtain ⟨f, -, rfl⟩ := List.mem_map.1 hmem
          obtain ⟨r, -, rfl⟩ := Option.map_eq_some_iff.1 hz
          exact absurd rfl (hfun r)
      · cases hm
  method ob k v h o ho := by
    obtain ⟨m, -, h⟩ := Option.bind_eq_some_iff.1 h
    obtain ⟨z, -, h⟩ := Option.bind_eq_some_iff.1 h
    split at h
    · exact absurd ho (scalar_inside (returns_scalar (Option.filter_eq_some_iff.1 h).2))
    · cases h
  elem l x h hx o ho := h o (.elem hx ho)

/-- The function `p.2` of the type `p.1` can be called by `q.2` of `q.1`. -/
def callLt (depth : String → Nat) (rank : String → String → Nat) (p q : String × String) : Prop :=
  Prod.Lex (· < ·) (· < ·) (depth p.1, rank p.1 p.2) (depth q.1, rank q.1 q.2)

theorem callLt_wf (depth : String → Nat) (rank : String → String → Nat) : WellFounded (callLt depth rank) :=
  InvImage.wf (fun p : String × String => (depth p.1, rank p.1 p.2)) (Prod.lex Nat.lt_wfRel Nat.lt_wfRel).wf

/-- Methods that call the same methods return the same. -/
theorem called_congr (hK : K.Good) (hO : ObjectsSeen T K) {c c' : String → String → Env → Option (Datum fo.F Object)}
    (hname : ∀ n y d, T n = some y → y.withFunctions = some d → d.name = n) {depth : String → Nat}
    (hd : ∀ n y d, T n = some y → y.withFunctions = some d → ∀ x ∈ d.members K, ∀ t sh,
      x.symb = some ⟨.compound t, sh⟩ → depth t < depth n)
    {rank : String → String → Nat} (hrank : ∀ n y d f e z, T n = some y → y.withFunctions = some d → f ∈ d.functions →
      f.result.expr = some e → f.returnType.zty K.names.types = some z →
      ∀ m ∈ (functionCode md (d.scope K.names) z e).names, m ∈ d.functions.map Ast.Func.name → rank n m < rank n f.name)
    {n m : String} {env : Env} {v : Datum fo.F Object}
    (hcc : ∀ n' k env', callLt depth rank (n', k) (n, m) → c n' k env' = c' n' k env')
    (h : Called md build float T { K with calls := c } n m env v) :
    Called md build float T { K with calls := c' } n m env v := by
  obtain ⟨y, d, f, e, z, R, h1, h2, h3, h4, h5, h6, h7, h8⟩ := h
  have hfm : f.name = m := by simpa using List.find?_some h3
  have hagree : ∀ (a b : String → String → Env → Option (Datum fo.F Object)),
      (∀ n' k env', callLt depth rank (n', k) (n, m) → a n' k env' = b n' k env') → ∀ o,
      Evals (d.look float { K with calls := a } env) (rscope (d.scope K.names)) build
        (functionCode md (d.scope K.names) z e) R o →
      Evals (d.look float { K with calls := b } env) (rscope (d.scope K.names)) build
        (functionCode md (d.scope K.names) z e) R o := by
    intro a b hab o ho
    have := evals_agree_methods (w := d.look float { K with calls := a } env)
      (f := (d.look float { K with calls := b } env).name) (g := (d.look float { K with calls := b } env).func)
      (h' := (d.look float { K with calls := b } env).method) (look_closed hK hO hd h1 h2 env a) ?_ _ _ _
      (fun k hk => ⟨rfl, ?_⟩) ho
    · exact this
    · intro ob k hob
      have hlt := hob ob .self
      have : a ob.type k ob.env = b ob.type k ob.env := hab _ _ _ (.left _ _ hlt)
      show Constants.method _ _ _ = Constants.method _ _ _
      simp only [Constants.method]
      rw [this]
      rfl
    · simp only [Ast.Struct.look]
      cases hg : d.functions.find? (fun f => f.name = k) with
      | none => rfl
      | some g =>
        have hgk : g.name = k := by simpa using List.find?_some hg
        have hlt := hrank n y d f e z h1 h2 (List.mem_of_find?_eq_some h3) h4 h5 k hk
          (List.mem_map.2 ⟨g, List.mem_of_find?_eq_some hg, hgk⟩)
        rw [hfm] at hlt
        simp only [Option.bind_some]
        rw [hname n y d h1 h2, hab n k env (.right _ hlt)]
        rfl
  refine ⟨y, d, f, e, z, R, h1, h2, h3, h4, h5, h6, h7, fun o => ?_⟩
  rw [← h8 o]
  exact ⟨hagree _ _ (fun n' k env' hk => (hcc n' k env' hk).symm) o, hagree _ _ hcc o⟩

open Classical in
/-- What the methods return if the methods that they call return `c`. -/
noncomputable def callStep (md build : Mode) (float : Val → fo.F) (T : Map (Symbol fo.F)) (K : Constants fo.F)
    (c : String → String → Env → Option (Datum fo.F Object)) (n m : String) (env : Env) : Option (Datum fo.F Object) :=
  if h : ∃ v, Called md build float T { K with calls := c } n m env v then some h.choose else none

theorem callStep_iff {c : String → String → Env → Option (Datum fo.F Object)} {n m : String} {env : Env}
    {v : Datum fo.F Object} :
    callStep md build float T K c n m env = some v ↔ Called md build float T { K with calls := c } n m env v := by
  unfold callStep
  split
  · rename_i h
    constructor
    · intro e
      cases e
      exact h.choose_spec
    · exact fun hv => congrArg some (called_unique h.choose_spec hv)
  · rename_i h
    exact ⟨nofun, fun hv => (h ⟨v, hv⟩).elim⟩

open Classical in
/-- What the methods return. -/
noncomputable def callFix (md build : Mode) (float : Val → fo.F) (T : Map (Symbol fo.F)) (K : Constants fo.F)
    (depth : String → Nat) (rank : String → String → Nat) : String × String → Env → Option (Datum fo.F Object) :=
  (callLt_wf depth rank).fix fun p rec env => callStep md build float T K
    (fun n' m' env' => if h : callLt depth rank (n', m') p then rec (n', m') h env' else none) p.1 p.2 env

theorem symbols_named {fl : FloatText} {p : Src.Package} {q : Ast.Package fl.F} (h : visitPackage fl p = .ok q) (n : String)
    (y : Symbol fl.F) (d : Ast.Struct fl.F) (hy : fileSymbols q n = some y) (hd : y.withFunctions = some d) : d.name = n := by
  obtain ⟨D, -, e, hv⟩ := symbol_visited (components h) hy
  have hnm : ∀ {s : Src.Struct} {d : Ast.Struct fl.F}, visitStruct fl s = .ok d → d.name = s.name := by
    intro s d h
    simp only [visitStruct, Res.bind_eq_ok, Res.ok.injEq] at h
    obtain ⟨ps, hps, fs, hfs, us, hus, rfl⟩ := h
    rfl
  cases hv with
  | struct hv =>
    cases hd
    exact (hnm hv).trans (by simpa [declares] using e)
  | union hv =>
    cases hd
    exact (hnm (visit_union hv)).trans (by simpa [declares, Union.shape] using e)
  | choice hv =>
    cases hd
    exact (hnm (visit_choice hv)).trans (by simpa [declares, Choice.shape] using e)
  | _ => cases hd

/-- Types that do not contain themselves. -/
theorem depth_visit {fl : FloatText} {p : Src.Package} {q : Ast.Package fl.F} (h : visitPackage fl p = .ok q)
    {K : Constants fl.F} {depth : String → Nat} (hd : ∀ D s, D ∈ p.directives → bodyOf D = some s →
      ∀ x ∈ membersOf K.types s, ∀ t sh, x.symb = some ⟨.compound t, sh⟩ → depth t < depth s.name) (n : String)
    (y : Symbol fl.F) (d : Ast.Struct fl.F) (hy : fileSymbols q n = some y) (hyd : y.withFunctions = some d) :
    ∀ x ∈ d.members K, ∀ t sh, x.symb = some ⟨.compound t, sh⟩ → depth t < depth n := by
  obtain ⟨D, hD, e, hv⟩ := symbol_visited (components h) hy
  have hb : ∃ s, bodyOf D = some s := by
    cases hv <;> first | exact ⟨_, rfl⟩ | cases hyd
  obtain ⟨s, hb⟩ := hb
  obtain ⟨d', hd', hvd⟩ := visited_body hv hb
  obtain rfl : d' = d := Option.some.inj (hd'.symm.trans hyd)
  rw [members_visit hvd]
  have hn : s.name = n := Option.some.inj ((body_name hb).symm.trans e)
  exact hn ▸ hd D s hD hb

/-- **C93** There is exactly one thing that the methods can return, in every package in which no function calls itself
and no type contains itself. -/
theorem C93_every_package (hK : K.Good) (hQ : visitPackage (floatText fo round display) P = .ok Q)
    (hn : ((P.directives.filterMap declares).map Prod.fst).Nodup) (hw : WrittenOut P P')
    (hT : TableUnder (fileSymbols Q) T) (hO : ObjectsSeen T K) (hr : CallsEnd md T K) :
    ∃ calls, ∀ calls', CallsSeen md build float T { K with calls := calls' } ↔ calls' = calls := by
  classical
  obtain ⟨Q', hQ', h⟩ := C86_same_symbols _ hQ hn hw
  obtain rfl := (h T).1 hT
  have hname := symbols_named hQ'
  obtain ⟨⟨depth, hd⟩, rank, hrank⟩ := hr
  have congr' := @called_congr fo K float md build (fileSymbols Q') hK hO
  let c0 : String → String → Env → Option (Datum fo.F Object) := fun n m env =>
    callFix md build float (fileSymbols Q') K depth rank (n, m) env
  have seen : CallsSeen md build float (fileSymbols Q') { K with calls := c0 } := by
    intro n m env v
    show callFix md build float (fileSymbols Q') K depth rank (n, m) env = some v ↔ _
    rw [callFix, WellFounded.fix_eq, callStep_iff]
    refine ⟨congr' hname hd hrank fun n' k env' hk => ?_, congr' hname hd hrank fun n' k env' hk => ?_⟩
    · simp only [hk, dif_pos]
      rfl
    · simp only [hk, dif_pos]
      rfl
  refine ⟨c0, fun c => ⟨fun hc => ?_, fun e => e ▸ seen⟩⟩
  have key : ∀ p : String × String, ∀ env, c p.1 p.2 env = c0 p.1 p.2 env := fun p =>
    (callLt_wf depth rank).induction (C := fun p => ∀ env, c p.1 p.2 env = c0 p.1 p.2 env) p fun q ih env => by
      refine Option.ext fun v => ?_
      rw [show c q.1 q.2 env = some v ↔ _ from hc q.1 q.2 env v, show c0 q.1 q.2 env = some v ↔ _ from seen q.1 q.2 env v]
      exact ⟨congr' hname hd hrank fun n' k env' hk => ih (n', k) hk env',
        congr' hname hd hrank fun n' k env' hk => (ih (n', k) hk env').symm⟩
  funext n m env
  exact key (n, m) env

/-! ## Types -/

theorem stand_calls (c : String → String → Env → Option (Datum fo.F Object)) {ds : List Src.Directive}
    (h : ConstsStand round ds K) : ConstsStand round ds { K with calls := c } where
  enums := h.enums
  masks := h.masks
  objects := ⟨h.objects.declared, h.objects.others⟩
  methods := h.methods
  declared := h.declared
  others := h.others

/-- **C93** The constants and functions that are generated are those of the package: the constants, enumerations, bitmasks
and structures are `K`, and there are functions that go with them, if neither constants nor functions depend on
themselves. -/
theorem C93_names (hQ : visitPackage (floatText fo round display) P = .ok Q)
    (hn : ((P.directives.filterMap declares).map Prod.fst).Nodup) (hw : WrittenOut P P')
    (hs : ConstsStand round P'.directives K) (hf : ConstsFit md round P'.directives K)
    (ha : ConstsAcyclic md round P'.directives K) (hr : ∀ T, TableUnder (fileSymbols Q) T → CallsEnd md T K) :
    ∃ T calls, TableUnder (fileSymbols Q) T ∧
      ∀ K', ConstsSeen md esc T K' ∧ CallsSeen md build float T K' ↔ K' = { K with calls := calls } := by
  obtain ⟨T, hT, -⟩ := C87_every_constant (esc := esc) hQ hn hw hs hf ha
  obtain ⟨calls, hc⟩ := C93_every_package (build := build) (float := float) (stand_good hs) hQ hn hw hT
    ((C91_objects hQ hn hw hT).2 hs.objects) (hr T hT)
  obtain ⟨T', hT', hK⟩ := C87_every_constant (esc := esc) (K := { K with calls := calls }) hQ hn hw (stand_calls calls hs) hf ha
  obtain rfl := tableUnder_unique hT hT'
  refine ⟨T, calls, hT, fun K' => ⟨fun ⟨h1, h2⟩ => ?_, fun e => ⟨e ▸ hK, e ▸ (hc calls).2 rfl⟩⟩⟩
  have he := C87_constants (K := { K with calls := K'.calls }) hQ hn hw (stand_calls K'.calls hs) hf hT h1 rfl
  have := (hc K'.calls).1 (he ▸ h2)
  rw [he, this]

/-- **C93** If no function calls itself, what is generated is the only thing that goes with the package. -/
theorem C93_unique (hQ : visitPackage (floatText fo round display) P = .ok Q)
    (hn : ((P.directives.filterMap declares).map Prod.fst).Nodup) (hw : WrittenOut P P')
    (hs : ConstsStand round P'.directives K) (hf : ConstsFit md round P'.directives K)
    (hT : TableUnder (fileSymbols Q) T) (hr : CallsEnd md T K) (hk : CallsSeen md build float T K)
    (hK' : ConstsSeen md esc T K') (hk' : CallsSeen md build float T K') : K' = K := by
  have he := C87_constants (K := { K with calls := K'.calls }) hQ hn hw (stand_calls K'.calls hs) hf hT hK' rfl
  obtain ⟨calls, hu⟩ := C93_every_package (K := K) (build := build) (float := float) (stand_good hs) hQ hn hw hT
    ((C91_objects hQ hn hw hT).2 hs.objects) hr
  exact C87_constants hQ hn hw hs hf hT hK' (((hu K'.calls).1 (he ▸ hk')).trans ((hu K.calls).1 hk).symm)

variable {name : String} {ps : List Src.Param} {t : SourceTy fo.F Object} {look : Env → World fo.F Object}
variable {c : Codec} {qs : List (Ast.Param fo.F)}

/-- **C93 (partial)** Objects of types whose expressions call functions are restored.  `K` are the constants of the package,
with the functions that are generated (`C93_call_partial`).  Missing: as for C87 and `C93_call_partial`. -/
theorem C93_round_trip_partial (hQ : visitPackage (floatText fo round display) P = .ok Q)
    (hn : ((P.directives.filterMap declares).map Prod.fst).Nodup) (hw : WrittenOut P P')
    (hst : ConstsStand round P'.directives K) (hf : ConstsFit md round P'.directives K)
    (hT : TableUnder (fileSymbols Q) T) (hr : CallsEnd md T K) (hk : CallsSeen md build float T K)
    (ht : t.Declares round float K P'.directives name ps)
    (hK' : ConstsSeen md esc T K') (hk' : CallsSeen md build float T K')
    (hc : CodeOf cfg md build float K' esc T name c qs) (hacc : t.Accepts md)
    (hs : (t.meaning look).Supported cfg) (v : Val) (hv : PackageValue cfg md K.enums ps t look v) (before : List Bool) :
    ∃ bits, c.write v ⟨before⟩ = .ok ⟨before ++ bits⟩ ∧ ∀ after,
      c.read ((t.meaning look).default.withParams v.params) ⟨before.length, bits ++ after⟩ =
        .ok (v, ⟨before.length + bits.length, after⟩) := by
  obtain rfl := C93_unique hQ hn hw hst hf hT hr hk hK' hk'
  exact C86_round_trip_partial (stand_good hst) hQ hn hw ht hT hc hacc hs v hv before

/-- **C93 (partial)** The bits are those of the zserio encoding of the type that the text declares.  Missing: as above. -/
theorem C93_encoding_partial (hQ : visitPackage (floatText fo round display) P = .ok Q)
    (hn : ((P.directives.filterMap declares).map Prod.fst).Nodup) (hw : WrittenOut P P')
    (hst : ConstsStand round P'.directives K) (hf : ConstsFit md round P'.directives K)
    (hT : TableUnder (fileSymbols Q) T) (hr : CallsEnd md T K) (hk : CallsSeen md build float T K)
    (ht : t.Declares round float K P'.directives name ps)
    (hK' : ConstsSeen md esc T K') (hk' : CallsSeen md build float T K')
    (hc : CodeOf cfg md build float K' esc T name c qs) (hacc : t.Accepts md)
    (hs : (t.meaning look).Supported cfg) (v : Val) (hv : PackageValue cfg md K.enums ps t look v) (before : List Bool) :
    ∃ bits env last, c.write v ⟨before⟩ = .ok ⟨before ++ bits⟩ ∧
      (t.meaning look).Wire cfg exactPacking none env v (fun _ => none) before.length bits last := by
  obtain rfl := C93_unique hQ hn hw hst hf hT hr hk hK' hk'
  exact C86_encoding_partial (stand_good hst) hQ hn hw ht hT hc hacc hs v hv before

/-- **C93 (partial)** The size function gives the number of bits that the writer appends.  Missing: as above, and what C25
excludes, because the property is false there. -/
theorem C93_bitsize_partial (hQ : visitPackage (floatText fo round display) P = .ok Q)
    (hn : ((P.directives.filterMap declares).map Prod.fst).Nodup) (hw : WrittenOut P P')
    (hst : ConstsStand round P'.directives K) (hf : ConstsFit md round P'.directives K)
    (hT : TableUnder (fileSymbols Q) T) (hr : CallsEnd md T K) (hk : CallsSeen md build float T K)
    (ht : t.Declares round float K P'.directives name ps)
    (hK' : ConstsSeen md esc T K') (hk' : CallsSeen md build float T K')
    (hc : CodeOf cfg md build float K' esc T name c qs) (hacc : t.Accepts md)
    (hs : (t.meaning look).Supported cfg) (hz : (t.meaning look).Sized) (v : Val)
    (hv : PackageValue cfg md K.enums ps t look v) (before : List Bool) :
    ∃ bits, c.write v ⟨before⟩ = .ok ⟨before ++ bits⟩ ∧ c.bitsize v before.length = .ok bits.length := by
  obtain rfl := C93_unique hQ hn hw hst hf hT hr hk hK' hk'
  exact C86_bitsize_partial (stand_good hst) hQ hn hw ht hT hc hacc hs hz v hv before

/-- **C93 (partial)** From the characters of a schema with functions to bits and back.  Missing: as above and in C84. -/
theorem C93_characters_partial {cs : List Char} (h : SchemaText P cs) (hw : WrittenOut P P') :
    ∃ Q T, packageOfText (floatText fo round display) cs = some (.ok Q) ∧ TableUnder (fileSymbols Q) T ∧
      ∀ K : Constants fo.F, ConstsStand round P'.directives K → ConstsFit md round P'.directives K → CallsEnd md T K →
        CallsSeen md build float T K → t.Declares round float K P'.directives name ps → t.Accepts md →
        (t.meaning look).Supported cfg →
        (∃ c qs, CodeOf cfg md build float K esc T name c qs) ∧
        ∀ K' c qs, ConstsSeen md esc T K' → CallsSeen md build float T K' → CodeOf cfg md build float K' esc T name c qs →
          ∀ v, PackageValue cfg md K.enums ps t look v → ∀ before,
          ∃ bits, c.write v ⟨before⟩ = .ok ⟨before ++ bits⟩ ∧ ∀ after,
            c.read ((t.meaning look).default.withParams v.params) ⟨before.length, bits ++ after⟩ =
              .ok (v, ⟨before.length + bits.length, after⟩) := by
  obtain ⟨Q, h1, hQ⟩ := C85_package (floatText fo round display) h
  obtain ⟨Q', hQ', hT⟩ := C86_same_symbols _ hQ h.names hw
  refine ⟨Q, _, h1, (hT _).2 rfl, fun K hst hf hr hk ht hacc hs => ⟨?_, fun K' c qs hK' hk' hc v hv before =>
    C93_round_trip_partial hQ h.names hw hst hf ((hT _).2 rfl) hr hk ht hK' hk' hc hacc hs v hv before⟩⟩
  obtain ⟨T', hT', c, qs, hc⟩ := C86_every_type cfg md build esc hQ h.names hw ht
  obtain rfl := (hT _).1 hT'
  exact ⟨c, qs, hc⟩

/-! ## An example -/

/-- `uint8 n;` -/
def bufN : Src.StructField := textField ⟨.builtin "uint8", .none⟩ "n"

/-- `uint8 data[size()];` -/
def bufD : Src.StructField :=
  { textField ⟨.builtin "uint8", .none⟩ "data" with
    typeId := { packed := false, implicit_ := false, type := ⟨.builtin "uint8", .none⟩, name := "data",
                array := some (some (.call (.id "size"))) } }

/-- `function uint8 size() { return n * 2; }` -/
def bufSize : Src.Func := ⟨.builtin "uint8", "size", .binary .mul (.id "n") (.lit .decimal "2".toList)⟩

/-- `struct Buf { uint8 n; uint8 data[size()]; function uint8 size() { return n * 2; } };` -/
def buf : Src.Struct := ⟨"Buf", [], [], [bufN, bufD], [bufSize]⟩

/-- The package. -/
def bufText : Src.Package := ⟨none, some ["demo"], [], [.struct buf]⟩

/-- What expressions use of the package, except for functions. -/
def bufNames : Constants tenths.F := withStructs noConstants [buf]

theorem buf_out : WrittenOut bufText bufText := by
  refine ⟨bufText.directives, ?_, rfl⟩
  exact .cons (.struct .nil (.cons ⟨bufN.typeId.type, ⟨.builtin, rfl, nofun⟩, rfl⟩
    (.cons ⟨bufD.typeId.type, ⟨.builtin, rfl, nofun⟩, rfl⟩ .nil)) (.cons ⟨_, .builtin, rfl⟩ .nil)) .nil

theorem buf_visit (display : tenths.F → List Char) :
    ∃ Q, visitPackage (floatText tenths noRound display) bufText = .ok Q :=
  ⟨_, by with_unfolding_all rfl⟩

theorem buf_names : ((bufText.directives.filterMap declares).map Prod.fst).Nodup := by decide

theorem buf_stand : ConstsStand noRound bufText.directives bufNames where
  enums := no_enums rfl
  masks := no_masks rfl
  objects := withStructs_stand (ds := bufText.directives) _ buf_names
  methods := methods_named (ds := bufText.directives) (by decide)
  declared c hc := by simp [constsIn, bufText] at hc
  others _ _ := ⟨rfl, rfl⟩

theorem buf_fit : ConstsFit .debug noRound bufText.directives bufNames := by
  intro c hc
  simp [constsIn, bufText] at hc

theorem buf_acyclic : ConstsAcyclic .debug noRound bufText.directives bufNames := by
  refine ⟨fun _ => 0, fun c hc => ?_⟩
  simp [constsIn, bufText] at hc

/-- `n * 2` -/
def bufExpr : Expr tenths.F := .arith .mul (.ident "n") (.intLit 2)

/-- The same with functions. -/
def bufConsts (calls : String → String → Env → Option (Datum tenths.F Object)) : Constants tenths.F :=
  { bufNames with calls := calls }

/-- `Buf` -/
def bufTy (calls : String → String → Env → Option (Datum tenths.F Object)) : SourceTy tenths.F Object :=
  .struct (textScope (bufConsts calls) buf) (textLook noNumber (bufConsts calls) buf) []
    (.cons {} (.builtin (.uint 8))
      (.cons { array := some (false, some (.call (.ident "size"))) } (.builtin (.uint 8)) .nil))

/-- Two, and twice as many numbers. -/
def bufVal : Val := .obj [] [.nat 2, .list [.nat 1, .nat 2, .nat 9, .nat 7]]

section
variable {calls : String → String → Env → Option (Datum tenths.F Object)}

theorem buf_good : (bufConsts calls).Good := stand_good (stand_calls calls buf_stand)

theorem buf_heads : Heads (bufConsts calls).enums buf := ⟨rfl, by simp [buf], by decide⟩

theorem bufExpr_stands : Stands noRound ["n"] bufSize.body bufExpr :=
  .binary (op := .mul) (.id (by decide)) (.int (l := .decimal [2]) (by simp [IntLit.WellFormed]) (by simp [IntLit.IsBinary]))

theorem bufExpr_code : functionCode .debug (textScope (bufConsts calls) buf) (.num .uint8) bufExpr =
    .cast (.paren (.bin (.arith .mul) (.atom (.name "n")) (.atom (.int 2)))) "u8" := rfl

theorem bufExpr_typed : Typed (rscope (textScope (bufConsts calls) buf))
    (functionCode .debug (textScope (bufConsts calls) buf) (.num .uint8) bufExpr) (.int ⟨false, 8⟩) := by
  rw [bufExpr_code]
  exact ⟨rfl, .int ⟨false, 8⟩, ⟨rfl, trivial, trivial⟩, .inr (.inl ⟨trivial, trivial⟩)⟩

theorem bufExpr_fits (t : RTy)
    (h : Infers (rscope (textScope (bufConsts calls) buf)) (code .debug (textScope (bufConsts calls) buf) bufExpr)
      (.int ⟨false, 8⟩) t) :
    Fits .debug (textScope (bufConsts calls) buf) (textLook noNumber (bufConsts calls) buf ⟨[], [.nat 2]⟩) bufExpr t := by
  obtain ⟨h1, -⟩ := h.1
  obtain rfl : (.int ⟨false, 8⟩ : RTy) = t := Option.some.inj h1
  refine ⟨trivial, ⟨_, rfl, by decide⟩, fun n hn => ?_, nofun⟩
  obtain rfl : (4 : Int) = n := by
    have : (some (.int 4) : Option (Datum tenths.F Object)) = some (.int n) := hn
    cases this
    rfl
  exact ⟨_, rfl, by decide⟩

theorem buf_ends (display : tenths.F → List Char) {Q : Ast.Package tenths.F}
    (hQ : visitPackage (floatText tenths noRound display) bufText = .ok Q) (T : Map (Symbol tenths.F))
    (hT : TableUnder (fileSymbols Q) T) : CallsEnd .debug T (bufConsts calls) := by
  obtain ⟨Q', hQ', h⟩ := C86_same_symbols _ hQ buf_names buf_out
  obtain rfl := (h T).1 hT
  refine ⟨⟨fun _ => 0, depth_visit hQ' fun D s hD hs x hx t sh hsy => ?_⟩, fun _ _ => 0,
    fun n y d f e z hy hd hf he hz m hm hmem => ?_⟩
  · simp only [bufText, List.mem_singleton] at hD
    subst hD
    cases hs
    simp [membersOf, buf, bufN, bufD, textField, typeIn, exprTypeOf] at hx
    rcases hx with rfl | rfl <;> simp at hsy
  obtain ⟨D, hD, -, hv⟩ := symbol_visited (components hQ') hy
  simp only [bufText, List.mem_singleton] at hD
  subst hD
  obtain ⟨d', hd', hv⟩ := visited_body hv rfl
  obtain rfl : d' = d := Option.some.inj (hd'.symm.trans hd)
  have hsc := scope_visit (K := bufConsts calls) hv (by decide)
  simp only [visitStruct, Res.bind_eq_ok, Res.ok.injEq] at hv
  obtain ⟨qs, -, fs, -, us, hus, rfl⟩ := hv
  simp only [buf, visitList, Res.bind_eq_ok, Res.ok.injEq] at hus
  obtain ⟨g, hg, _, rfl, rfl⟩ := hus
  simp only [List.mem_singleton] at hf
  subst hf
  obtain ⟨h1, h2, h3⟩ := visitFunc_parts hg
  have he' := expr_visit (bufExpr_stands) _ h3
  obtain rfl : bufExpr = e := Option.some.inj (he'.symm.trans he)
  rw [names_types, zty_visit h2] at hz
  obtain rfl : ZTy.num .uint8 = z := Option.some.inj hz
  rw [hsc, bufExpr_code] at hm
  simp only [RExpr.names, List.append_nil, List.mem_singleton] at hm
  subst hm
  simp only [List.map_cons, List.map_nil, List.mem_singleton, h1] at hmem
  simp [bufSize] at hmem

theorem buf_declares : (bufTy calls).Declares noRound noNumber (bufConsts calls) bufText.directives "Buf" [] := by
  have hoff : ∀ n, ¬ ∃ g ∈ buf.fields, OffsetIn n g.offset := by
    simp [buf, bufN, bufD, textField, OffsetIn]
  simp only [bufTy, SourceTy.Declares, SourceFields.Declares]
  refine ⟨buf, by simp [bufText], rfl, rfl, buf_heads, rfl, rfl, rfl,
    _, _, rfl, ⟨rfl, rfl, rfl, trivial, rfl, .none, ?_⟩, ⟨.scalar rfl, rfl⟩,
    _, _, rfl, ⟨rfl, ⟨rfl, rfl, _, rfl, .call (by decide)⟩, rfl, trivial, rfl, .none, ?_⟩, ⟨.scalar rfl, rfl⟩, rfl⟩ <;>
  exact ⟨nofun, fun h => (hoff _ h).elim⟩

theorem buf_accepts : (bufTy calls).Accepts .debug := by
  simp only [bufTy, SourceTy.Accepts, SourceFields.Accepts, SourceTy.written, and_true, true_and]
  refine ⟨textScope_ordinary buf_good _, ?_, ?_⟩ <;> constructor <;>
    simp [Modifiers.with, Written.Mentions, Expr.Unit, Expr.level, Expr.isCmp,
      Expr.isIsset, Expr.isValueof, Expr.endsWithCast, or_imp, forall_and]
  · exact ⟨rfl, .int ⟨false, 8⟩, rfl, .inr (.inl ⟨trivial, trivial⟩)⟩
  · simp [Expr.Separable]

theorem buf_supported (cfg : Cfg) (look : Env → World tenths.F Object) : ((bufTy calls).meaning look).Supported cfg := by
  simp [bufTy, SourceTy.meaning, SourceFields.meaning, Modifiers.info, Ty.Supported, Fields.Supported, Scalar.WidthOk]

theorem buf_shaped : FieldsShaped buf.fields [.nat 2] := by
  intro j f v z hf hv ⟨_, _, hz⟩
  match j with
  | 0 =>
    cases hf
    cases hv
    obtain rfl : ZTy.num .uint8 = z := Option.some.inj hz
    intro x hx n i hn hi
    obtain rfl : (.nat 2 : Val) = x := hx
    cases hn
    cases hi
    rintro k hk
    cases hk
    decide
  | j + 1 => cases hv

/-- `size()` is 4 if `n` is 2. -/
theorem buf_call (display : tenths.F → List Char) {Q : Ast.Package tenths.F} {build : Mode} {T : Map (Symbol tenths.F)}
    (hQ : visitPackage (floatText tenths noRound display) bufText = .ok Q) (hT : TableUnder (fileSymbols Q) T)
    (hk : CallsSeen .debug build noNumber T (bufConsts calls)) (cfg : Cfg) :
    means (textLook noNumber (bufConsts calls) buf ⟨[], [.nat 2]⟩) (.call (.ident "size")) = some (.int 4) :=
  C93_call_partial (cfg := cfg) (ps := []) (f := bufSize) (R := .int ⟨false, 8⟩) buf_good hQ buf_names buf_out hT hk
    (D := .struct buf) (by simp [bufText]) rfl buf_heads (by simp [buf]) bufExpr_stands rfl rfl trivial buf_shaped
    (v := .int 4) rfl (.int ⟨_, rfl, by decide⟩) bufExpr_typed bufExpr_fits

theorem buf_valid (display : tenths.F → List Char) {Q : Ast.Package tenths.F} {build : Mode} {T : Map (Symbol tenths.F)}
    (hQ : visitPackage (floatText tenths noRound display) bufText = .ok Q) (hT : TableUnder (fileSymbols Q) T)
    (hk : CallsSeen .debug build noNumber T (bufConsts calls)) (cfg : Cfg) (look : Env → World tenths.F Object) :
    ((bufTy calls).meaning look).Valid cfg ⟨[], []⟩ bufVal := by
  have hc : lengthValue (textLook noNumber (bufConsts calls) buf ⟨[], [.nat 2]⟩) (.call (.ident "size")) = 4 := by
    rw [lengthValue, buf_call display hQ hT hk cfg]
    rfl
  simp only [bufTy, bufVal, SourceTy.meaning, SourceFields.meaning, Ty.Valid, Fields.Valid]
  refine ⟨_, _, rfl, _, _, rfl, ⟨?_, rfl⟩, _, _, rfl, ?_, rfl⟩
  · simp [Scalar.InRange]
  · refine ⟨_, rfl, hc, fun i y h => ?_⟩
    have hy := List.mem_of_getElem? h
    simp only [List.mem_cons, List.not_mem_nil, or_false] at hy
    rcases hy with rfl | rfl | rfl | rfl <;> refine ⟨?_, rfl⟩ <;> simp [Scalar.InRange]

theorem bufVal_fit (display : tenths.F → List Char) {Q : Ast.Package tenths.F} {build : Mode} {T : Map (Symbol tenths.F)}
    (hQ : visitPackage (floatText tenths noRound display) bufText = .ok Q) (hT : TableUnder (fileSymbols Q) T)
    (hk : CallsSeen .debug build noNumber T (bufConsts calls)) (cfg : Cfg) : (bufTy calls).Fit .debug false bufVal := by
  simp only [bufTy, bufVal, SourceTy.Fit, SourceFields.Fit]
  refine ⟨_, _, rfl,
    _, _, rfl, trivial, ⟨⟨nofun, nofun, nofun, nofun⟩, fun _ _ _ => trivial⟩,
    _, _, rfl, ⟨_, rfl⟩, ⟨⟨nofun, fun p e he => ?_, nofun, nofun⟩, fun _ _ _ => trivial⟩, rfl⟩
  cases he
  exact ⟨4, by decide, buf_call display hQ hT hk cfg, fun _ _ => trivial⟩

end

-- A buffer is written and restored; the array has four elements because the function says so.
example (cfg : Cfg) (build : Mode) (esc : EScope tenths.F) (display : tenths.F → List Char) : ∃ Q T calls c qs,
    visitPackage (floatText tenths noRound display) bufText = .ok Q ∧ TableUnder (fileSymbols Q) T ∧
    (∀ K', ConstsSeen .debug esc T K' ∧ CallsSeen .debug build noNumber T K' ↔ K' = bufConsts calls) ∧
    CodeOf cfg .debug build noNumber (bufConsts calls) esc T "Buf" c qs ∧
    ∃ bits, c.write bufVal ⟨[]⟩ = .ok ⟨bits⟩ ∧
      c.read ((bufTy calls).meaning (textLook noNumber (bufConsts calls) buf)).default ⟨0, bits⟩ =
        .ok (bufVal, ⟨bits.length, []⟩) := by
  obtain ⟨Q, hQ⟩ := buf_visit display
  obtain ⟨T, calls, hT, hK⟩ := C93_names (esc := esc) (build := build) (float := noNumber) hQ buf_names buf_out buf_stand
    buf_fit buf_acyclic fun T hT => buf_ends (calls := bufNames.calls) display hQ T hT
  obtain ⟨T', hT', c, qs, hc⟩ := C86_every_type cfg .debug build esc hQ buf_names buf_out (buf_declares (calls := calls))
  obtain rfl := tableUnder_unique hT hT'
  obtain ⟨hk1, hk2⟩ := (hK _).2 rfl
  obtain ⟨bits, hw, hr⟩ := C93_round_trip_partial (K := bufConsts calls) hQ buf_names buf_out (stand_calls calls buf_stand) buf_fit hT
    (buf_ends display hQ T hT) hk2 buf_declares hk1 hk2 hc buf_accepts (buf_supported cfg _) bufVal
    ⟨trivial, ⟨_, buf_valid display hQ hT hk2 cfg (textLook noNumber (bufConsts calls) buf)⟩, bufVal_fit display hQ hT hk2 cfg⟩ []
  refine ⟨Q, T, calls, c, qs, hQ, hT, hK, hc, bits, hw, ?_⟩
  have := hr []
  rwa [List.append_nil, List.length_nil, Nat.zero_add] at this

/-! ## An example of an overflow -/

/-- `function uint8 square() { return n * n; }` -/
def bufSquare : Src.Func := ⟨.builtin "uint8", "square", .binary .mul (.id "n") (.id "n")⟩

/-- `struct Square { uint8 n; function uint8 square() { return n * n; } };` -/
def squareStruct : Src.Struct := ⟨"Square", [], [], [bufN], [bufSquare]⟩

/-- The package. -/
def squareText : Src.Package := ⟨none, some ["demo"], [], [.struct squareStruct]⟩

theorem square_out : WrittenOut squareText squareText := by
  refine ⟨squareText.directives, ?_, rfl⟩
  exact .cons (.struct .nil (.cons ⟨bufN.typeId.type, ⟨.builtin, rfl, nofun⟩, rfl⟩ .nil) (.cons ⟨_, .builtin, rfl⟩ .nil)) .nil

theorem square_shaped : FieldsShaped squareStruct.fields [.nat 20] := by
  intro j f v z hf hv ⟨_, _, hz⟩
  match j with
  | 0 =>
    cases hf
    cases hv
    obtain rfl : ZTy.num .uint8 = z := Option.some.inj hz
    intro x hx n i hn hi
    obtain rfl : (.nat 20 : Val) = x := hx
    cases hn
    cases hi
    rintro k hk
    cases hk
    decide
  | j + 1 => cases hv

-- If `n` is 20, `square()` is 144 in release builds, and nothing in debug builds, but `n * n` is 400.
example (cfg : Cfg) (display : tenths.F → List Char) (K : Constants tenths.F)
    (hs : ConstsStand noRound squareText.directives K) : ∃ Q T,
    visitPackage (floatText tenths noRound display) squareText = .ok Q ∧ TableUnder (fileSymbols Q) T ∧
    means (textLook noNumber K squareStruct ⟨[], [.nat 20]⟩) (.arith .mul (.ident "n") (.ident "n")) = some (.int 400) ∧
    (CallsSeen .debug .debug noNumber T K →
      means (textLook noNumber K squareStruct ⟨[], [.nat 20]⟩) (.call (.ident "square")) = none) ∧
    (CallsSeen .debug .release noNumber T K →
      means (textLook noNumber K squareStruct ⟨[], [.nat 20]⟩) (.call (.ident "square")) = some (.int 144)) := by
  obtain ⟨Q, hQ⟩ : ∃ Q, visitPackage (floatText tenths noRound display) squareText = .ok Q :=
    ⟨_, by with_unfolding_all rfl⟩
  obtain ⟨Q', hQ', hT⟩ := C86_same_symbols _ hQ (by decide) square_out
  have := C93_overflow_violated (cfg := cfg) (ps := []) (float := noNumber) (md := .debug) (stand_good hs) hQ (by decide) square_out
    ((hT _).2 rfl) (D := .struct squareStruct) (by simp [squareText]) rfl ⟨rfl, by simp [squareStruct], by decide⟩
    (f := bufSquare) (by simp [squareStruct]) (known := ["n"]) (op := .mul) (by simp) (x := "n") (y := "n")
    (.binary (op := .mul) (.id (by decide)) (.id (by decide))) (m := .uint8) rfl (i := ⟨false, 8⟩) rfl rfl rfl trivial
    square_shaped (a := 20) (b := 20) (z := 400) rfl rfl rfl (by decide)
  exact ⟨Q, _, hQ, (hT _).2 rfl, this.1, this.2.1, this.2.2.1⟩

end Zs
