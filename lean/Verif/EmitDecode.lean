import Verif.EmitEncode

/-!
# The lines emitted for reading a field
-/

namespace Zs

namespace Emit

open Spec

/-! ## Types -/

theorem rust_default {cfg : Cfg} {E : Env → Prop} {ty : RefTy} {ops : TypeOps}
    (h : IsType cfg E ty ops)
    (scope : Env → Env) : (ty.inScope scope).rust.default = ops.dflt := by
  cases h with
  | compound c n => rfl
  | scalar hs => cases hs <;> rfl

theorem IsType.compound_dflt {cfg : Cfg} {E : Env → Prop} {c : Codec} {n : Nat} {ops : TypeOps}
    (h : IsType cfg E (.compound c n) ops) : ops.dflt = c.dflt := by
  cases h; rfl

/-- The effect of a reading line on the state. -/
def wasRead (st : St) (p : Place) (x : (Val × Node) × Reader) : Res St :=
  .ok (((st.withR x.2).withNode x.1.2).set p x.1.1)

theorem withNode_selfR (st : St) (r : Reader) (p : Place) (v : Val) :
    ((st.withR r).withNode st.core.node).set p v = (st.withR r).set p v := rfl

/-- `decode_type` emits one statement, which reads the value. -/
theorem decodeType_exec {cfg : Cfg} {E : Env → Prop} {ty : RefTy} {ops : TypeOps}
    (h : IsType cfg E ty ops)
    (scope : Env → Env) (p : Place) (i : Nat) (packed : Bool) (info : FieldInfo)
    (hp : packed = true → ops.isPackable = true) :
    ∃ s, decodeType (ty.inScope scope) p i packed = [.stmt s] ∧ ∀ st v, E (scope st.env) → st.get p = .ok v →
      s.exec cfg st = (FieldOps.decodeType ⟨info, ops⟩ packed i (scope st.env) v st.core.node
        st.core.r >>= wasRead st p) := by
  have ht := initTrait_eval h scope
  cases h with
  | compound c n =>
    cases packed with
    | true =>
      refine ⟨_, rfl, fun st v hE hv => ?_⟩
      simp only [Stmt.exec, hv, FieldOps.decodeType, Codec.ops, Res.ok_bind, if_true]
      cases Node.onChild st.core.node i (fun n => do
        let ((v, n), r) ← c.readPacked v n st.core.r
        pure ((v, r), n)) <;> rfl
    | false =>
      refine ⟨_, rfl, fun st v hE hv => ?_⟩
      simp only [Stmt.exec, hv, FieldOps.decodeType, Codec.ops, Res.ok_bind, if_false,
        Bool.false_eq_true]
      cases c.read v st.core.r <;> rfl
  | @scalar name bits length s h =>
    cases packed with
    | true =>
      have hpk : s.isPackable = true := hp rfl
      have key : decodeType (RefTy.inScope scope (.builtin name bits length)) p i true
          = [.stmt (.readDelta i (initTrait (RefTy.inScope scope (.builtin name bits length)))
              (RefTy.inScope scope (.builtin name bits length)).rust p)] := by
        cases h <;> first | rfl | (exact absurd hpk (by decide))
      refine ⟨_, key, fun st v hE hv => ?_⟩
      simp only [Stmt.exec, hv, ht _ hE, Res.ok_bind, FieldOps.decodeType, if_true, onDelta_eq]
      have hd : (fun c : Node => c.onContext fun d => do
            let ((v, d), r) ← d.read cfg.md ((s.ops cfg).arrayTrait (scope st.env)).toElem st.core.r v
            pure ((v, r), d))
          = (fun c : Node => do
            let ((x, c), r) ← (s.ops cfg).readPacked (scope st.env) v c st.core.r
            pure ((x, r), c)) := by
        funext c
        obtain ⟨cs, d⟩ := c
        cases d with
        | none => rfl
        | some d =>
          simp only [Node.onContext, Scalar.ops, Elem.packable]
          cases d.read cfg.md (s.elem cfg (scope st.env)) st.core.r v <;> rfl
      rw [hd]
      cases Node.onChild st.core.node i _ <;> rfl
    | false =>
      cases h with
      | bits _ h =>
        have hn : bits ≠ 0 := by omega
        refine ⟨.readUnsignedBits p (.lit bits), by simp [decodeType, RefTy.inScope, hn, lenText],
          fun st v hE hv => ?_⟩
        simp only [Stmt.exec, hv, LenText.eval, Res.ok_bind, FieldOps.decodeType, Scalar.ops,
          Scalar.read, if_false, Bool.false_eq_true]
        cases Scalar.readAs _ _ st.core.r <;> rfl
      | ints _ h =>
        have hn : bits ≠ 0 := by omega
        refine ⟨.readSignedBits p (.lit bits), by simp [decodeType, RefTy.inScope, hn, lenText],
          fun st v hE hv => ?_⟩
        simp only [Stmt.exec, hv, LenText.eval, Res.ok_bind, FieldOps.decodeType, Scalar.ops,
          Scalar.read, if_false, Bool.false_eq_true]
        cases Scalar.readAs _ _ st.core.r <;> rfl
      | bitsDyn l len h hc =>
        refine ⟨_, rfl, fun st v hE hv => ?_⟩
        simp only [Stmt.exec, hv, Option.map_some, lenText_eval h hc scope _ hE, Res.ok_bind, FieldOps.decodeType,
          Scalar.ops, Scalar.read, if_false, Bool.false_eq_true]
        cases Scalar.readAs _ _ st.core.r <;> rfl
      | intsDyn l len h hc =>
        refine ⟨_, rfl, fun st v hE hv => ?_⟩
        simp only [Stmt.exec, hv, Option.map_some, lenText_eval h hc scope _ hE, Res.ok_bind, FieldOps.decodeType,
          Scalar.ops, Scalar.read, if_false, Bool.false_eq_true]
        cases Scalar.readAs _ _ st.core.r <;> rfl
      | _ =>
        refine ⟨_, rfl, fun st v hE hv => ?_⟩
        simp only [Stmt.exec, hv, Res.ok_bind, FieldOps.decodeType, Scalar.ops, Scalar.read, readByName,
          if_false, Bool.false_eq_true]
        cases Scalar.readAs _ _ st.core.r <;> rfl

theorem decodeType_single (ty : RefTy) (p : Place) (i : Nat) (packed : Bool) :
    ∃ s, decodeType ty p i packed = [.stmt s] := by
  unfold decodeType
  repeat' split
  all_goals exact ⟨_, rfl⟩

/-! ## Places -/

/-- The places that can be assigned to. -/
def Assignable : Place → Prop
  | .number _ => False
  | _ => True

/-- The places a reader assigns to, and what expressions see of them. -/
structure Stable (scope : Env → Env) (p : Place) : Prop where
  assignable : Assignable p
  env : ∀ (st : St) (v : Val), scope (st.set p v).env = scope st.env

theorem stable_optionalValue (scope : Env → Env) : Stable scope .optionalValue :=
  ⟨trivial, fun _ _ => rfl⟩

theorem stable_before (i : Nat) : Stable (before i) (.self i) := by
  refine ⟨trivial, fun st v => ?_⟩
  simp only [before, St.env, St.set, List.take_set_of_le (Nat.le_refl i)]

theorem stable_paramsOnly (i : Nat) : Stable paramsOnly (.self i) :=
  ⟨trivial, fun _ _ => rfl⟩

theorem St.get_set {st : St} {p : Place} (hp : Assignable p) {v : Val} (h : st.get p = .ok v)
    (x : Val) : (st.set p x).get p = .ok x := by
  cases p with
  | number f => exact hp.elim
  | self i =>
    have hi : i < st.core.fields.length := by
      cases hf : st.core.fields[i]? with
      | none => simp only [St.get, hf] at h; exact absurd h (by simp)
      | some y => exact (List.getElem?_eq_some_iff.1 hf).1
    simp only [St.get, St.set, List.getElem?_set_self hi]
  | x => rfl
  | optionalValue => rfl
  | element => rfl

theorem St.set_set (st : St) (p : Place) (x y : Val) : (st.set p x).set p y = st.set p y := by
  cases p <;> simp [St.set, List.set_set]

theorem St.get_withR (st : St) (r : Reader) (p : Place) : (st.withR r).get p = st.get p := by
  cases p <;> rfl

/-! ## Type arguments -/

theorem Val.params_withParams {v : Val} (h : v.params ≠ []) (ps : List Val) :
    (v.withParams ps).params = ps := by
  cases v <;> first | rfl | exact absurd rfl h

theorem Val.withParams_withParams (v : Val) (ps qs : List Val) :
    (v.withParams ps).withParams qs = v.withParams qs := by
  cases v <;> rfl

theorem literalParams_eq {E : Env → Prop} {scope : Env → Env} {env : Env} {idx j : Nat}
    (hE : E (scope env)) :
    ∀ {as : List Arg} {bs : List (Env → Nat → Val)}, AreArgs E as bs →
      (∀ a ∈ as, a.usesIndex = true → j = idx) →
      literalParams env j (as.map (Arg.inScope scope)) = .ok (bs.map fun b => b (scope env) idx)
  | [], [], _, _ => rfl
  | a :: as, b :: bs, h, hi => by
    have hv : a.eval (scope env) j = .ok (b (scope env) idx) := by
      rw [h.1 _ _ hE]
      cases hu : a.usesIndex with
      | true => rw [hi a (by simp) hu]
      | false => rw [h.2.1 hu _ _ idx hE]
    simp only [List.map_cons, literalParams, Arg.inScope, hv, Res.ok_bind]
    have ih := literalParams_eq (scope := scope) (env := env) (idx := idx) (j := j) hE h.2.2
      (fun a ha => hi a (by simp [ha]))
    rw [show (as.map fun a => Arg.inScope scope a) = as.map (Arg.inScope scope) from rfl, ih]
    rfl
  | [], _ :: _, h, _ => h.elim
  | _ :: _, [], h, _ => h.elim

/-- `zs_item` before and after the assignments that use the index. -/
theorem setItems_run {cfg : Cfg} {E : Env → Prop} {scope : Env → Env} {c : Codec} {n : Nat} (hc : c.dflt.params.length = n)
    (hn : 0 < n) : ∀ {as : List Arg} {bs : List (Env → Nat → Val)} (done ds : List Val) (st : St),
    AreArgs E as bs → E (scope st.env) → done.length + as.length = n → ds.length = as.length →
    ∃ ps, itemParams st.env st.loc.index ds (as.map (Arg.inScope scope)) = .ok ps ∧
      (Code.ofLines (setItems n done.length (as.map (Arg.inScope scope)))).run cfg
          { st with loc := { st.loc with item := c.dflt.withParams (done ++ ps) } }
        = .ok { st with loc := { st.loc with
            item := c.dflt.withParams (done ++ bs.map fun b => b (scope st.env) st.loc.index) } }
  | [], [], done, ds, st, _, _, _, _ => ⟨[], by cases ds <;> rfl, rfl⟩
  | a :: as, b :: bs, done, [], st, _, _, _, hd => by simp at hd
  | a :: as, b :: bs, done, d :: ds, st, h, hE, hk, hd => by
    have hne : c.dflt.params ≠ [] := by intro he; rw [he] at hc; simp at hc; omega
    have hv : a.eval (scope st.env) st.loc.index = .ok (b (scope st.env) st.loc.index) :=  h.1 _ _ hE
    have hk' : (done ++ [b (scope st.env) st.loc.index]).length + as.length = n := by
      simp only [List.length_append, List.length_cons, List.length_nil] at hk ⊢; omega
    obtain ⟨ps, h1, h2⟩ := setItems_run (cfg := cfg) (scope := scope) hc hn
      (done ++ [b (scope st.env) st.loc.index]) ds st h.2.2 hE hk' (by simpa using hd)
    have hlen : ps.length = as.length := by
      clear h2 hk' hk hd
      revert ps
      have : ∀ (as : List Arg) (ds ps : List Val), itemParams st.env st.loc.index ds as = .ok ps →
          ps.length = as.length := by
        intro as
        induction as with
        | nil => intro ds ps hh; cases ds <;> (simp [itemParams] at hh; simp [← hh])
        | cons a as ih =>
          intro ds ps hh
          cases ds with
          | nil => simp [itemParams] at hh
          | cons d ds =>
            simp only [itemParams] at hh
            split at hh <;>
            · obtain ⟨v, _, hh⟩ := (Res.bind_eq_ok).1 hh
              obtain ⟨vs, hvs, hh⟩ := (Res.bind_eq_ok).1 hh
              cases hh
              simp [ih ds vs hvs]
      intro ps hps
      simpa using this _ _ _ hps
    simp only [List.append_assoc, List.cons_append, List.nil_append, List.length_append,
      List.length_cons, List.length_nil] at h2
    cases hu : a.usesIndex with
    | false =>
      refine ⟨b (scope st.env) st.loc.index :: ps, ?_, ?_⟩
      · simp only [List.map_cons, itemParams, Arg.inScope, hu, Bool.false_eq_true, if_false, hv,
          Res.ok_bind]
        rw [show (as.map fun a => Arg.inScope scope a) = as.map (Arg.inScope scope) from rfl, h1]
        rfl
      · simp only [List.map_cons, setItems, Arg.inScope, hu, Bool.false_eq_true, if_false,
          List.nil_append]
        exact h2
    | true =>
      refine ⟨d :: ps, ?_, ?_⟩
      · simp only [List.map_cons, itemParams, Arg.inScope, hu, if_true, Res.pure_eq, Res.ok_bind]
        rw [show (as.map fun a => Arg.inScope scope a) = as.map (Arg.inScope scope) from rfl, h1]
        rfl
      · have hp : (c.dflt.withParams (done ++ d :: ps)).params = done ++ d :: ps :=
          Val.params_withParams hne _
        have hpl : (done ++ d :: ps).length = n := by
          simp only [List.length_append, List.length_cons] at hk ⊢; omega
        simp only [List.map_cons, setItems, Arg.inScope, hu, if_true, List.cons_append,
          List.nil_append, Code.ofLines, Code.run, Stmt.exec, paramOf, hp, hpl,
          List.getElem?_append_right (Nat.le_refl _), Nat.sub_self, List.getElem?_cons_zero, Res.ok_bind]
        rw [show St.env { st with loc := { st.loc with item := c.dflt.withParams (done ++ d :: ps) } }
          = st.env from rfl, hv]
        simp only [Res.ok_bind, Res.pure_eq, Val.withParams_withParams,
          List.set_append_right _ _ (Nat.le_refl _), Nat.sub_self, List.set_cons_zero]
        exact h2
  | [], _ :: _, _, _, _, h, _, _, _ => h.elim
  | _ :: _, [], _, _, _, h, _, _, _ => h.elim

theorem setItems_eq (n : Nat) : ∀ (as : List Arg) (k : Nat),
    (if as.any Arg.usesIndex then setItems n k as else []) = setItems n k as
  | [], _ => by simp [setItems]
  | a :: as, k => by
    have ih := setItems_eq n as (k + 1)
    cases hu : a.usesIndex with
    | true => simp [setItems, hu]
    | false =>
      simp only [List.any_cons, hu, Bool.false_or, setItems, Bool.false_eq_true, if_false,
        List.nil_append]
      exact ih

theorem allStmts_setItems (n : Nat) : ∀ (as : List Arg) (k : Nat), AllStmts (setItems n k as)
  | [], _ => by simp [AllStmts, setItems]
  | a :: as, k => by
    intro l hl
    simp only [setItems, List.mem_append] at hl
    rcases hl with hl | hl
    · split at hl
      · simp only [List.mem_singleton] at hl
        exact ⟨_, hl⟩
      · simp at hl
    · exact allStmts_setItems n as (k + 1) l hl

/-! ## The value -/

/-- The tree of the loop over elements with type arguments. -/
def readElementsCode (f : Field) (p : Place) : Code :=
  match f.ty with
  | .builtin _ _ _ => .nil
  | .compound c n =>
    Code.one (.clear p) ++ Code.one (.reserve p) ++ Code.one .letPackingContext ++
    Code.blk .forIndex (Code.one (.letItem c f.args) ++ Code.ofLines (setItems n 0 f.args)
      ++ Code.one (.readElement (decide (f.offset = .indexed))) ++ Code.one (.pushItem p))

theorem lines_readElementsCode (f : Field) (p : Place) :
    (readElementsCode f p).lines = readElements f p := by
  unfold readElementsCode readElements
  cases f.ty with
  | builtin _ _ _ => rfl
  | compound c n =>
    simp only [Code.lines_append, Code.lines_one, Code.lines_blk, setItems_eq,
      Code.lines_ofLines (allStmts_setItems n f.args 0)]
    simp

/-- The tree of a value. -/
def valueCode (f : Field) (i : Nat) (packed : Bool) (p : Place) : Code :=
  Code.ofLines (initialValue f) ++
  if f.array.isSome then
    Code.one .letLength ++
    (if f.args.isEmpty then Code.one (.readArray p f.ty.rust (decide (f.offset = .indexed)))
    else readElementsCode f p)
  else Code.one (.assignInitial p) ++ Code.ofLines (decodeType f.ty p i (packed && f.isPackable))

theorem lines_valueCode (f : Field) (i : Nat) (packed : Bool) (p : Place) :
    (valueCode f i packed p).lines = initialValue f ++
      (if f.array.isSome then
        .stmt .letLength ::
        (if f.args.isEmpty then [.stmt (.readArray p f.ty.rust (decide (f.offset = .indexed)))]
        else readElements f p)
      else .stmt (.assignInitial p) :: decodeType f.ty p i (packed && f.isPackable)) := by
  unfold valueCode
  rw [Code.lines_append]
  congr 1
  · unfold initialValue
    repeat' split
    all_goals rfl
  · split
    · rw [Code.lines_append]
      split
      · rfl
      · rw [lines_readElementsCode]; rfl
    · rw [Code.lines_append]
      obtain ⟨s, hs⟩ := decodeType_single f.ty p i (packed && f.isPackable)
      rw [hs]
      rfl

/-- What a reader leaves behind: the state, and the value of the place. -/
def seen (p : Place) (st : St) : Res (Core × Res Val) := .ok (st.core, st.get p)

/-- The lines for one element. -/
def elementCode (c : Codec) (n : Nat) (args : List Arg) (indexed : Bool) (p : Place) : Code :=
  Code.one (.letItem c args) ++ Code.ofLines (setItems n 0 args)
    ++ Code.one (.readElement indexed) ++ Code.one (.pushItem p)

/-- The state after an element has been appended to the vector `data` of a place. -/
def St.pushed (st : St) (p : Place) (data : Vec Val) : St :=
  { st.set p (.list data.items) with
    loc := { (st.set p (.list data.items)).loc with capacity := data.capacity } }

/-- The state after an element has been read. -/
def St.readElem (st : St) (x : (Val × Node) × Reader) : St :=
  ⟨{ st.core with r := x.2 }, { st.loc with item := x.1.1, packing := x.1.2 }⟩

theorem exec_pushItem {cfg : Cfg} {p : Place} {data : Vec Val} {st : St}
    (hget : st.get p = .ok (.list data.items)) (hcap : st.loc.capacity = data.capacity) :
    (Stmt.pushItem p).exec cfg st = .ok (st.pushed p (data.push cfg.minCap st.loc.item)) := by
  simp only [Stmt.exec, hget, Res.ok_bind, vecOf, hcap]
  rfl

theorem St.get_readElem (st : St) (x : (Val × Node) × Reader) (p : Place) :
    (st.readElem x).get p = st.get p := by
  cases p <;> rfl

theorem run_elementCode {cfg : Cfg} {E : Env → Prop} {g : Field} {f : FieldOps} (h : Denotes cfg E g f)
    {scope : Env → Env} {p : Place} {c : Codec}
    (hne : g.args ≠ []) (hty : f.ty.dflt = c.dflt) (hc : c.dflt.params.length = g.args.length)
    {a : ArrayDef Val} {data : Vec Val} {st : St} (hE : Inside E f (scope st.env))
    (hget : st.get p = .ok (.list data.items)) (hcap : st.loc.capacity = data.capacity)
    (harr : st.loc.array = some a) :
    (elementCode c g.args.length (g.args.map (Arg.inScope scope)) f.indexed p).run cfg st
      = (a.readOneElement st.core.r st.loc.packing (f.initial (scope st.env) st.loc.index) f.indexed
          >>= fun x =>
        .ok ((st.readElem x).pushed p (data.push cfg.minCap x.1.1))) := by
  have hpos : 0 < g.args.length := List.length_pos_iff.2 hne
  have hl := AreArgs.length h.args
  obtain ⟨ps, hps, hset⟩ := setItems_run (cfg := cfg) (scope := scope) (c := c) hc hpos []
    c.dflt.params st h.args hE (by simp) hc
  have hfe : f.info.args.isEmpty = false := by
    cases hf : f.info.args with
    | nil => rw [hf, List.length_nil] at hl; omega
    | cons _ _ => rfl
  have hinit : f.initial (scope st.env) st.loc.index
      = c.dflt.withParams (f.info.args.map fun b => b (scope st.env) st.loc.index) := by
    simp only [FieldOps.initial, hfe, Bool.false_eq_true, if_false, hty, FieldOps.argValues]
  unfold elementCode
  simp only [Code.run_append, Code.run_one]
  simp only [Stmt.exec, hps, Res.ok_bind, Res.pure_eq]
  simp only [List.nil_append, List.length_nil] at hset
  rw [hset, ← hinit]
  simp only [Res.ok_bind, St.theArray, harr, Code.run_one, Stmt.exec]
  cases hro : a.readOneElement st.core.r st.loc.packing (f.initial (scope st.env) st.loc.index)
    f.indexed with
  | err e => rfl
  | panic => rfl
  | ok x =>
    simp only [Res.ok_bind, Res.pure_eq]
    have hx := exec_pushItem (cfg := cfg) (p := p) (data := data) (st := st.readElem x)
      (by rw [St.get_readElem]; exact hget) hcap
    rw [Code.run_one, ← harr]
    exact hx

/-- The loop over the elements. -/
theorem run_readElements {cfg : Cfg} {E : Env → Prop} {g : Field} {f : FieldOps} (h : Denotes cfg E g f)
    {scope : Env → Env} {p : Place} (hp : Stable scope p) {c : Codec}
    (hne : g.args ≠ []) (hty : f.ty.dflt = c.dflt) (hc : c.dflt.params.length = g.args.length)
    {a : ArrayDef Val} (env : Env) (hE : Inside E f env) :
    ∀ (k idx : Nat) (data : Vec Val) (st : St), scope st.env = env →
      st.get p = .ok (.list data.items) → st.loc.capacity = data.capacity → st.loc.array = some a →
      (forIndices ((elementCode c g.args.length (g.args.map (Arg.inScope scope)) f.indexed p).run cfg)
          k idx st >>= seen p)
      = (f.readParamAll cfg a env k idx st.loc.packing data st.core.r >>= fun x =>
          seen p ((st.withR x.2).set p (.list x.1.items)))
  | 0, idx, data, st, henv, hget, hcap, harr => by
    have hid : ((st.withR st.core.r).set p (.list data.items)).core = st.core := by
      cases p with
      | number f => exact hp.assignable.elim
      | self i =>
        have hf : st.core.fields[i]? = some (.list data.items) := by
          simp only [St.get] at hget
          split at hget
          · next v hv => cases hget; exact hv
          · exact absurd hget (by simp)
        have := List.getElem?_eq_some_iff.1 hf
        obtain ⟨hi, hv⟩ := this
        simp only [St.set, St.withR]
        rw [← hv, List.set_getElem_self]
      | x => rfl
      | optionalValue => rfl
      | element => rfl
    simp only [forIndices, FieldOps.readParamAll, Res.ok_bind, Res.pure_eq, seen]
    rw [hid, hget]
    have : ((st.withR st.core.r).set p (.list data.items)).get p = .ok (.list data.items) :=
      St.get_set hp.assignable (v := .list data.items) (by rw [St.get_withR]; exact hget) _
    rw [this]
  | k + 1, idx, data, st, henv, hget, hcap, harr => by
    have hb := run_elementCode (cfg := cfg) h (scope := scope) (p := p) (c := c) hne hty hc (a := a)
      (data := data) (st := { st with loc := { st.loc with index := idx } })
      (by rw [← henv] at hE; exact hE)
      (by rw [← hget]; cases p <;> rfl) hcap harr
    simp only [forIndices, FieldOps.readParamAll]
    rw [hb]
    have henv' : scope (St.env { st with loc := { st.loc with index := idx } }) = env := henv
    simp only [henv']
    cases a.readOneElement st.core.r st.loc.packing (f.initial env idx) f.indexed with
    | err e => rfl
    | panic => rfl
    | ok x =>
      simp only [Res.ok_bind]
      let st1 : St := St.readElem { st with loc := { st.loc with index := idx } } x
      have hg1 : st1.get p = .ok (.list data.items) := by rw [← hget]; cases p <;> rfl
      have ih := run_readElements h hp hne hty hc (a := a) env hE k (idx + 1)
        (data.push cfg.minCap x.1.1) (st1.pushed p (data.push cfg.minCap x.1.1))
        ((hp.env st1 _).trans henv)
        (by
          have := St.get_set hp.assignable hg1 (.list (data.push cfg.minCap x.1.1).items)
          rw [← this]; cases p <;> rfl)
        rfl
        (by cases p <;> exact harr)
      refine Eq.trans ih ?_
      have hpk : (st1.pushed p (data.push cfg.minCap x.1.1)).loc.packing = x.1.2 := by
        cases p <;> rfl
      have hr : (st1.pushed p (data.push cfg.minCap x.1.1)).core.r = x.2 := by
        cases p <;> rfl
      rw [hpk, hr]
      congr 1
      funext y
      cases p <;> simp [St.set, St.withR, St.pushed, St.readElem, seen, St.get, List.set_set, st1]

/-- The lines that read a value do what the schema model says. -/
theorem run_valueCode {cfg : Cfg} {E : Env → Prop} {g : Field} {f : FieldOps} (h : Denotes cfg E g f)
    {scope : Env → Env} {p : Place} (hp : Stable scope p) (i : Nat) (packed : Bool) {st : St}
    {old : Val} (hE : Inside E f (scope st.env)) (hx : st.get p = .ok old) (ha : ArrayReady f packed scope st)
    (hold : g.array.isSome = true → ∃ xs, old = .list xs) :
    ((valueCode (g.inScope scope) i packed p).run cfg st >>= seen p)
      = (f.decodeContent cfg packed i (scope st.env) old st.core.node st.core.r >>= fun x =>
          seen p (((st.withR x.2).withNode x.1.2).set p x.1.1)) := by
  have hl := AreArgs.length h.args
  have hidx := indexed_eq h scope
  have harr := h.array
  have hty : (g.inScope scope).ty = g.ty.inScope scope := rfl
  have hargs : (g.inScope scope).args = g.args.map (Arg.inScope scope) := rfl
  unfold valueCode
  rw [Code.run_append]
  cases hga : g.array with
  | none =>
    have hfa : f.info.array = none := by
      cases hfa : f.info.array with
      | none => rfl
      | some a => rw [hga, hfa] at harr; exact harr.elim
    have hia : (g.inScope scope).array = none := by simp [Field.inScope, hga]
    have hinit : (Code.ofLines (initialValue (g.inScope scope))).run cfg st
        = .ok { st with loc := { st.loc with initialValue := f.initial (scope st.env) 0 } } := by
      unfold initialValue
      rw [hia]
      simp only [Option.isSome_none, Bool.false_eq_true, if_false]
      by_cases hne : g.args = []
      · have hfe : f.info.args = [] := List.length_eq_zero_iff.1 (by rw [← hl, hne]; rfl)
        rw [hargs, hne]
        simp only [List.map_nil, List.isEmpty_nil, if_true, Code.run_ofLines_one, Stmt.exec, hty,
          rust_default h.ty, FieldOps.initial, hfe]
        rfl
      · obtain ⟨c, hc, hcl⟩ := h.arity hne
        have hfe : f.info.args.isEmpty = false := by
          cases hf : f.info.args with
          | nil =>
            rw [hf, List.length_nil] at hl
            exact absurd (List.length_eq_zero_iff.1 hl) hne
          | cons _ _ => rfl
        have hge : (g.inScope scope).args.isEmpty = false := by
          rw [hargs]
          cases hg : g.args with
          | nil => exact absurd hg hne
          | cons _ _ => rfl
        have hd : f.ty.dflt = c.dflt := by
          have := h.ty
          rw [hc] at this
          exact IsType.compound_dflt this
        rw [hge]
        simp only [Bool.false_eq_true, if_false, hty, hc, RefTy.inScope, Code.run_ofLines_one,
          Stmt.exec, hargs]
        rw [literalParams_eq (idx := 0) hE h.args (fun a ham hu => by
          rw [h.index hga a ham] at hu; exact absurd hu (by decide))]
        simp only [Res.ok_bind, Res.pure_eq, FieldOps.initial, hfe, Bool.false_eq_true, if_false,
          FieldOps.argValues, hd]
    rw [hinit]
    simp only [Res.ok_bind, hia, Option.isSome_none, Bool.false_eq_true, if_false,
      FieldOps.decodeContent, hfa]
    have hpk : (packed && (g.inScope scope).isPackable) = (packed && f.isPackable) := by
      rw [isPackable_eq h]
    have hp' : (packed && f.isPackable) = true → f.ty.isPackable = true := by
      intro hb
      simp only [Bool.and_eq_true] at hb
      have := hb.2
      unfold FieldOps.isPackable at this
      rw [hfa] at this
      split at this
      · exact absurd this (by decide)
      · simpa using this
    obtain ⟨s, hs, hrun⟩ := decodeType_exec h.ty scope p i (packed && f.isPackable) f.info hp'
    rw [hpk, hty, hs, Code.run_append, Code.run_one]
    let st1 : St := { st with loc := { st.loc with initialValue := f.initial (scope st.env) 0 } }
    have hx1 : st1.get p = .ok old := by rw [← hx]; cases p <;> rfl
    show (((Stmt.assignInitial p).exec cfg st1 >>= _) >>= _) = _
    simp only [Stmt.exec, hx1, Res.ok_bind, Res.pure_eq]
    rw [Code.run_ofLines_one, hrun _ _ (by rw [hp.env st1 _]; exact inFront_of hE) (St.get_set hp.assignable hx1 _), hp.env st1 _]
    have hn : (st1.set p st1.loc.initialValue).core.node = st.core.node := by cases p <;> rfl
    have hr : (st1.set p st1.loc.initialValue).core.r = st.core.r := by cases p <;> rfl
    rw [hn, hr]
    show (FieldOps.decodeType f (packed && f.isPackable) i (scope st.env) (f.initial (scope st.env) 0)
      st.core.node st.core.r >>= _) >>= _ = _
    cases FieldOps.decodeType f (packed && f.isPackable) i (scope st.env)
      (f.initial (scope st.env) 0) st.core.node st.core.r with
    | err e => rfl
    | panic => rfl
    | ok x =>
      simp only [Res.ok_bind, wasRead]
      cases p <;> simp [St.set, St.withR, St.withNode, seen, St.get, List.set_set, st1]
  | some a =>
    obtain ⟨b, hfa⟩ : ∃ b, f.info.array = some b := by
      cases hfa : f.info.array with
      | some a => exact ⟨a, rfl⟩
      | none => rw [hga, hfa] at harr; exact harr.elim
    have hsome : (g.inScope scope).array.isSome = true := by simp [Field.inScope, hga]
    obtain ⟨xs, rfl⟩ := hold (by rw [hga]; rfl)
    have hinit : Code.ofLines (initialValue (g.inScope scope)) = .nil := by
      unfold initialValue
      rw [if_pos hsome]
      rfl
    rw [hinit, Code.run_nil, Res.ok_bind, if_pos hsome, Code.run_append, Code.run_one]
    have hthe : st.theArray = .ok (f.arrayDef packed (scope st.env) b) := by
      unfold St.theArray
      rw [ha b hfa]
    simp only [FieldOps.decodeContent, hfa, FieldOps.decodeArray, Stmt.exec, hthe, Res.ok_bind]
    have harr0 := ha b hfa
    generalize f.arrayDef packed (scope st.env) b = arr at *
    cases hlen : arr.zserioReadArrayLength st.core.r with
    | err e => rfl
    | panic => rfl
    | ok y =>
      obtain ⟨len, r⟩ := y
      simp only [Res.ok_bind, Res.pure_eq]
      let st1 : St := ⟨{ st.core with r := r }, { st.loc with length := len }⟩
      have hx1 : st1.get p = .ok (.list xs) := by rw [← hx]; cases p <;> rfl
      have hthe1 : st1.theArray = .ok arr := hthe
      show (Code.run cfg _ st1 >>= seen p) = _
      by_cases hne : g.args = []
      · have hfe : f.info.args = [] := List.length_eq_zero_iff.1 (by rw [← hl, hne]; rfl)
        have hge : (g.inScope scope).args.isEmpty = true := by rw [hargs, hne]; rfl
        rw [if_pos hge, Code.run_one]
        simp only [Stmt.exec, hx1, Res.ok_bind, vecOf, hthe1, hidx, hty, rust_default h.ty, hfe,
          List.isEmpty_nil, if_true]
        show (arr.zserioRead cfg.minCap cfg.chunk f.ty.dflt r ⟨xs, xs.length⟩ len f.indexed >>= _)
          >>= _ = _
        cases arr.zserioRead cfg.minCap cfg.chunk f.ty.dflt r ⟨xs, xs.length⟩ len f.indexed with
        | err e => rfl
        | panic => rfl
        | ok z => cases p <;> rfl
      · obtain ⟨c, hc, hcl⟩ := h.arity hne
        have hfe : f.info.args.isEmpty = false := by
          cases hf : f.info.args with
          | nil =>
            rw [hf, List.length_nil] at hl
            exact absurd (List.length_eq_zero_iff.1 hl) hne
          | cons _ _ => rfl
        have hge : (g.inScope scope).args.isEmpty = false := by
          rw [hargs]
          cases hg : g.args with
          | nil => exact absurd hg hne
          | cons _ _ => rfl
        have hd : f.ty.dflt = c.dflt := by
          have := h.ty
          rw [hc] at this
          exact IsType.compound_dflt this
        rw [hge]
        simp only [hfe, Bool.false_eq_true, if_false]
        have hcode : readElementsCode (g.inScope scope) p
            = Code.one (.clear p) ++ Code.one (.reserve p) ++ Code.one .letPackingContext ++
              Code.blk .forIndex
                (elementCode c g.args.length (g.args.map (Arg.inScope scope)) f.indexed p) := by
          unfold readElementsCode
          rw [hty, hc, hidx]
          rfl
        rw [hcode]
        simp only [Code.run_append, Code.run_one]
        let st2 : St := { st1.set p (.list []) with
          loc := { (st1.set p (.list [])).loc with capacity := xs.length } }
        have hclear : (Stmt.clear p).exec cfg st1 = .ok st2 := by
          simp only [Stmt.exec, hx1, Res.ok_bind, vecOf]
          rfl
        have hx2 : st2.get p = .ok (.list []) := by
          have := St.get_set hp.assignable hx1 (.list [])
          rw [← this]; cases p <;> rfl
        let data : Vec Val := Vec.reserve cfg.minCap ⟨[], xs.length⟩ (min len cfg.chunk)
        let st3 : St := { st2 with loc := { st2.loc with capacity := data.capacity } }
        have hlen2 : st2.loc.length = len := by cases p <;> rfl
        have hreserve : (Stmt.reserve p).exec cfg st2 = .ok st3 := by
          have hdata : Vec.reserve cfg.minCap ⟨[], st2.loc.capacity⟩ (min st2.loc.length cfg.chunk)
              = data := by rw [hlen2]
          simp only [Stmt.exec, hx2, Res.ok_bind, vecOf]
          rw [hdata]
          rfl
        have harr3 : st3.loc.array = some arr := by
          have : st3.loc.array = st.loc.array := by cases p <;> rfl
          rw [this]; exact harr0
        let st4 : St := { st3 with loc := { st3.loc with packing := arr.arrayTrait.createContext } }
        have hpack : Stmt.letPackingContext.exec cfg st3 = .ok st4 := by
          have hthe3 : st3.theArray = .ok arr := by unfold St.theArray; rw [harr3]
          simp only [Stmt.exec, hthe3, Res.ok_bind]
          rfl
        have hitems : data.items = [] := by
          simp only [data, Vec.reserve]; split <;> rfl
        have hx4 : st4.get p = .ok (.list data.items) := by
          rw [hitems, ← hx2]; cases p <;> rfl
        have hlen4 : st4.loc.length = len := hlen2
        have hloop := run_readElements (cfg := cfg) h hp (c := c) hne hd hcl (a := arr) (scope st.env) hE len
          0 data st4 (hp.env st1 _) hx4 rfl harr3
        simp only [hclear, Res.ok_bind, Code.run_one, hreserve, hpack, Code.run_blk, Head.exec, hlen4]
        rw [hloop]
        have hpk4 : st4.loc.packing = arr.arrayTrait.createContext := rfl
        have hr4 : st4.core.r = r := by cases p <;> rfl
        rw [hpk4, hr4]
        show _ = ((f.readParamAll cfg arr (scope st.env) len 0 arr.arrayTrait.createContext data r
          >>= _) >>= _) >>= _
        cases f.readParamAll cfg arr (scope st.env) len 0 arr.arrayTrait.createContext data r with
        | err e => rfl
        | panic => rfl
        | ok z =>
          simp only [Res.ok_bind]
          cases p <;> simp [St.set, St.withR, St.withNode, seen, St.get, List.set_set, st1, st2, st3, st4]

/-! ## The field -/

/-- The alignment lines of the reader. -/
def alignCodeR (f : Field) : Code :=
  (if f.alignment ≠ 0 then Code.one (.alignReader f.alignment) else .nil)
  ++ (if f.offset = .plain then Code.one (.alignReader 8) else .nil)

theorem lines_alignCodeR (f : Field) : (alignCodeR f).lines
    = (if f.alignment ≠ 0 then [.stmt (.alignReader f.alignment)] else [])
      ++ (if f.offset = .plain then [.stmt (.alignReader 8)] else []) := by
  unfold alignCodeR
  rw [Code.lines_append]
  split <;> split <;> rfl

theorem run_alignCodeR {cfg : Cfg} {E : Env → Prop} {g : Field} {f : FieldOps} (h : Denotes cfg E g f)
    (scope : Env → Env) (st : St) :
    (alignCodeR (g.inScope scope)).run cfg st
      = (f.alignReader st.core.r >>= fun r => .ok (st.withR r)) := by
  unfold alignCodeR FieldOps.alignReader
  rw [Code.run_append]
  have h1 : (g.inScope scope).alignment = f.info.alignment := h.alignment
  have h2 : (g.inScope scope).offset = f.info.offset := h.offset
  rw [h1, h2]
  have h3 : ∀ st : St, (if f.info.offset = .plain then Code.one (.alignReader 8) else .nil).run cfg st
      = ((if f.info.offset = .plain then Zs.alignReader st.core.r 8 else pure st.core.r) >>= fun r =>
        .ok (st.withR r)) := by
    intro st
    split
    · rw [Code.run_one]; rfl
    · rw [Code.run_nil]; rfl
  by_cases ha : f.info.alignment = 0
  · simp only [ha, ne_eq, not_true_eq_false, if_false, Code.run_nil, Res.ok_bind, if_true, Res.pure_eq]
    exact h3 st
  · simp only [ha, ne_eq, not_false_eq_true, if_true, if_false, Code.run_one, Stmt.exec]
    cases Zs.alignReader st.core.r f.info.alignment with
    | ok w =>
      simp only [Res.ok_bind, Res.pure_eq]
      rw [h3]
      rfl
    | err e => rfl
    | panic => rfl

/-- The tree of lines around a field that is read: `if {clause} {` or `{`. -/
def blockCode (f : Field) (body : Code) : Code :=
  match f.clause with
  | some c => Code.blk (.ifCond c) body
  | none => Code.blk .block body

theorem run_blockCode {cfg : Cfg} {E : Env → Prop} {g : Field} {f : FieldOps} (h : Denotes cfg E g f)
    (scope : Env → Env) (body : Code) (st : St) (hE : E (scope st.env)) :
    (blockCode (g.inScope scope) body).run cfg st
      = if f.present (scope st.env) then body.run cfg st else .ok st := by
  rw [← run_clauseCode h _ _ _ hE]
  unfold blockCode clauseCode
  cases (g.inScope scope).clause with
  | none => simp only [Code.run_blk, Head.exec]
  | some c => rfl

/-- The tree of `decode_field`. -/
def decodeCode (f : Field) (i : Nat) (packed : Bool) : Code :=
  blockCode f (alignCodeR f ++
    if f.optional then
      Code.one .letPresent ++ Code.blk .ifPresent
        (Code.one (.letOptional f.array.isSome f.ty.rust) ++ valueCode f i packed .optionalValue
          ++ Code.one (.storeOptional i))
    else valueCode f i packed (.self i))

theorem lines_decodeCode (f : Field) (i : Nat) (packed : Bool) :
    (decodeCode f i packed).lines = decodeField f i packed := by
  unfold decodeCode decodeField blockCode
  cases hc : f.clause <;> cases ho : f.optional <;>
    simp only [Code.lines_blk, Code.lines_append, lines_alignCodeR, lines_valueCode,
      Bool.false_eq_true, if_false, if_true, Code.lines_one] <;>
    simp [List.append_assoc]

theorem run_decodeCode {cfg : Cfg} {E : Env → Prop} {g : Field} {f : FieldOps} (h : Denotes cfg E g f)
    {scope : Env → Env} {i : Nat} (hs : Stable scope (.self i)) (packed : Bool) {st : St} {old : Val}
    (hE : E (scope st.env)) (hv : st.core.fields[i]? = some old) (ha : ArrayReady f packed scope st)
    (hold : g.array.isSome = true → g.optional = false → ∃ xs, old = .list xs) :
    ((decodeCode (g.inScope scope) i packed).run cfg st >>= fun st => .ok st.core)
      = (f.decode cfg packed i (scope st.env) old st.core.node st.core.r >>= fun x =>
          .ok { st.core with r := x.2, node := x.1.2, fields := st.core.fields.set i x.1.1 }) := by
  have hself : st.core.fields.set i old = st.core.fields := by
    obtain ⟨hi, hv⟩ := List.getElem?_eq_some_iff.1 hv
    rw [← hv, List.set_getElem_self]
  unfold decodeCode FieldOps.decode
  rw [run_blockCode h _ _ _ hE]
  split
  · rename_i hpres
    have hin := inside_of hE hpres
    rw [Code.run_append, run_alignCodeR h]
    cases f.alignReader st.core.r with
    | err e => rfl
    | panic => rfl
    | ok r =>
      simp only [Res.ok_bind]
      have hget : (st.withR r).get (.self i) = .ok old := by
        show (match st.core.fields[i]? with | some v => Res.ok v | none => .panic) = _
        rw [hv]
      have ho : (g.inScope scope).optional = f.info.optional := h.optional
      unfold FieldOps.decodeOptional
      rw [ho]
      cases hopt : f.info.optional with
      | false =>
        simp only [Bool.false_eq_true, if_false]
        have := run_valueCode h hs i packed (st := st.withR r) hin hget ha
          (fun hsome => hold hsome (h.optional.trans hopt))
        have := congrArg (fun y : Res (Core × Res Val) => y >>= fun z => Res.ok z.1) this
        refine Eq.trans ?_ (this.trans ?_)
        · cases (valueCode (g.inScope scope) i packed (.self i)).run cfg (st.withR r) <;> rfl
        · show ((f.decodeContent cfg packed i (scope st.env) old st.core.node r >>= _) >>= _) = _
          cases f.decodeContent cfg packed i (scope st.env) old st.core.node r <;> rfl
      | true =>
        simp only [if_true]
        rw [Code.run_append, Code.run_one]
        simp only [Stmt.exec, St.withR]
        cases r.readBool with
        | err e => rfl
        | panic => rfl
        | ok y =>
          obtain ⟨b, r1⟩ := y
          simp only [Res.ok_bind, Res.pure_eq, Code.run_blk, Head.exec]
          cases b with
          | false =>
            simp only [Bool.false_eq_true, if_false, Res.ok_bind]
            rw [hself]
          | true =>
            simp only [if_true]
            have hd : (if (g.inScope scope).array.isSome = true then Val.list []
                else (g.inScope scope).ty.rust.default) = f.contentDflt := by
              have hse : (g.inScope scope).array.isSome = f.info.array.isSome := by
                have := h.array
                simp only [Field.inScope]
                cases hg : g.array <;> cases hf : f.info.array <;> simp_all [IsArray]
              unfold FieldOps.contentDflt
              rw [hse, show (g.inScope scope).ty = g.ty.inScope scope from rfl, rust_default h.ty]
            simp only [Code.run_append, Code.run_one, Stmt.exec, hd, Res.pure_eq, Res.ok_bind]
            let st1 : St := ⟨{ st.core with r := r1 },
              { st.loc with present := true, optionalValue := f.contentDflt }⟩
            have hrun := run_valueCode h (stable_optionalValue scope) i packed (st := st1)
              (old := f.contentDflt) hin rfl ha (by
                intro hsome
                have : f.info.array.isSome = true := by
                  have := h.array
                  cases hg : g.array <;> cases hf : f.info.array <;> simp_all [IsArray]
                exact ⟨[], by simp [FieldOps.contentDflt, this]⟩)
            have hst : ∀ st2 : St, st2.core.fields[i]? = some old →
                (Stmt.storeOptional i).exec cfg st2
                  = .ok (st2.set (.self i) (.some st2.loc.optionalValue)) := by
              intro st2 hst2
              simp only [Stmt.exec, St.get, hst2, Res.ok_bind]
              rfl
            show ((Code.run cfg _ st1 >>= _) >>= _) = _
            have hcore : st1.core.node = st.core.node := rfl
            have henv : scope st1.env = scope st.env := rfl
            have hr1 : st1.core.r = r1 := rfl
            rw [hcore, henv, hr1] at hrun
            cases hc : f.decodeContent cfg packed i (scope st.env) f.contentDflt st.core.node r1 with
            | err e =>
              rw [hc] at hrun
              cases hq : (valueCode (g.inScope scope) i packed .optionalValue).run cfg st1 with
              | ok z => rw [hq] at hrun; exact absurd hrun (by simp [seen])
              | err e' => rw [hq] at hrun; simpa using hrun
              | panic => rw [hq] at hrun; exact absurd hrun (by simp)
            | panic =>
              rw [hc] at hrun
              cases hq : (valueCode (g.inScope scope) i packed .optionalValue).run cfg st1 with
              | ok z => rw [hq] at hrun; exact absurd hrun (by simp [seen])
              | err e' => rw [hq] at hrun; exact absurd hrun (by simp)
              | panic => rfl
            | ok x =>
              rw [hc] at hrun
              cases hq : (valueCode (g.inScope scope) i packed .optionalValue).run cfg st1 with
              | ok z =>
                rw [hq] at hrun
                simp only [Res.ok_bind, seen, Res.ok.injEq, Prod.mk.injEq, St.get] at hrun
                obtain ⟨hz, hz2⟩ := hrun
                have hzf : z.core.fields[i]? = some old := by rw [hz]; exact hv
                simp only [Res.ok_bind, Code.run_one, hst z hzf]
                rw [show (St.set z (.self i) (.some z.loc.optionalValue)).core
                  = { z.core with fields := z.core.fields.set i (.some z.loc.optionalValue) } from rfl,
                  hz2, hz]
                rfl
              | err e' => rw [hq] at hrun; exact absurd hrun (by simp [seen])
              | panic => rw [hq] at hrun; exact absurd hrun (by simp [seen])
  · simp only [Res.ok_bind, Res.pure_eq]
    rw [hself]

end Emit

end Zs
