import Verif.ExecLemmas
import Verif.EmitSpec

/-!
# The lines emitted for writing a field
-/

namespace Zs

namespace Emit

open Spec

/-! ## Lines that are statements only -/

/-- The statements at the beginning of lines. -/
def Code.ofLines : List Line → Code
  | .stmt s :: ls => .stmt s (Code.ofLines ls)
  | _ => .nil

/-- All lines are statements. -/
def AllStmts (ls : List Line) : Prop := ∀ l ∈ ls, ∃ s, l = .stmt s

theorem Code.lines_ofLines : ∀ {ls : List Line}, AllStmts ls → (Code.ofLines ls).lines = ls
  | [], _ => rfl
  | l :: ls, h => by
    obtain ⟨s, rfl⟩ := h l (by simp)
    have := Code.lines_ofLines (ls := ls) (fun l hl => h l (by simp [hl]))
    simp [Code.ofLines, Code.lines, this]

theorem Code.run_ofLines_one (cfg : Cfg) (s : Stmt) (st : St) :
    (Code.ofLines [.stmt s]).run cfg st = s.exec cfg st := Code.run_one cfg s st

theorem Code.run_nil (cfg : Cfg) (st : St) : Code.nil.run cfg st = .ok st := by
  simp [Code.run]

/-! ## States -/

/-- The state after a loop over elements. -/
def St.at' (st : St) (e : Val) (j : Nat) : St :=
  { st with loc := { st.loc with element := e, index := j } }

theorem St.get_withW (st : St) (w : Writer) (p : Place) : (st.withW w).get p = st.get p := by
  cases p <;> rfl

/-- The scope of the expressions of a field. -/
abbrev St.scope (st : St) (scope : Env → Env) : Env := scope st.env

/-! ## Array traits -/

/-- The array trait the generator emits is that of the type. -/
theorem initTrait_eval {cfg : Cfg} {E : Env → Prop} {ty : RefTy} {ops : TypeOps}
    (h : IsType cfg E ty ops)
    (scope : Env → Env) (env : Env) (hE : E (scope env)) :
    (initTrait (ty.inScope scope)).eval cfg env (ty.inScope scope).rust
      = .ok (ops.arrayTrait (scope env)) := by
  cases h with
  | compound c n => rfl
  | @scalar name bits length s h =>
    cases h with
    | bits _ h =>
      have : bits ≠ 0 := by omega
      simp [initTrait, RefTy.inScope, RefTy.rust, TraitExpr.eval, this, NumBits.eval, traitImpl,
        traitName, rustName, Scalar.ops, Scalar.elem]
    | ints _ h =>
      have : bits ≠ 0 := by omega
      simp [initTrait, RefTy.inScope, RefTy.rust, TraitExpr.eval, this, NumBits.eval, traitImpl,
        traitName, rustName, Scalar.ops, Scalar.elem]
    | bitsDyn l len h hc =>
      simp [initTrait, RefTy.inScope, RefTy.rust, TraitExpr.eval, NumBits.eval, traitImpl,
        traitName, rustName, Scalar.ops, Scalar.elem, h _ hE]
    | intsDyn l len h hc =>
      simp [initTrait, RefTy.inScope, RefTy.rust, TraitExpr.eval, NumBits.eval, traitImpl,
        traitName, rustName, Scalar.ops, Scalar.elem, h _ hE]
    | _ => rfl

theorem Scalar.ops_arrayTrait_toElem (cfg : Cfg) (s : Scalar) (env : Env) :
    ((s.ops cfg).arrayTrait env).toElem = s.elem cfg env := rfl

theorem isPackable_eq {cfg : Cfg} {E : Env → Prop} {g : Field} {f : FieldOps} (h : Denotes cfg E g f)
    (scope : Env → Env) : (g.inScope scope).isPackable = f.isPackable := by
  have ha : (g.inScope scope).array.isSome = f.info.array.isSome := by
    have := h.array
    simp only [Field.inScope]
    cases hg : g.array <;> cases hf : f.info.array <;> simp_all [IsArray]
  have ho : (g.inScope scope).isOffsetField = f.info.isOffsetField := h.isOffsetField
  unfold Field.isPackable FieldOps.isPackable
  rw [ho, ha]
  split
  · rfl
  · split
    · rfl
    · have := h.ty
      simp only [Field.inScope]
      generalize g.ty = ty, f.ty = ops at this ⊢
      cases this with
      | compound c n => rfl
      | scalar hs => cases hs <;> rfl

/-! ## `encode_type` -/

/-- The effect of a writing line on the state. -/
def wrote (st : St) (x : Writer × Node) : Res St := .ok ((st.withW x.1).withNode x.2)

theorem lenText_eval {E : Env → Prop} {l : LenExpr} {len : Env → Nat}
    (h : ∀ env, E env → l.eval env = .ok (len env))
    (hc : l.cast = false → ∀ env, E env → len env < 256) (scope : Env → Env) (env : Env)
    (hE : E (scope env)) (bits : Nat) :
    (lenText bits (some ⟨fun e => l.eval (scope e), l.cast⟩)).eval env
      = .ok (len (scope env) % 256) := by
  simp only [lenText, LenText.eval, h _ hE, Res.ok_bind, Res.pure_eq]
  cases hcast : l.cast with
  | true => rfl
  | false =>
    have := hc hcast (scope env) hE
    simp [Nat.mod_eq_of_lt this]

theorem onDelta_eq {β : Type} (n : Node) (i : Nat) (f : DeltaContext → Res (β × DeltaContext)) :
    onDelta n i f = n.onChild i (fun c => c.onContext f) := rfl

theorem withNode_self (st : St) (w : Writer) : (st.withW w).withNode st.core.node = st.withW w := rfl

/-- `encode_type` emits one statement, which writes the value. -/
theorem encodeType_exec {cfg : Cfg} {E : Env → Prop} {ty : RefTy} {ops : TypeOps}
    (h : IsType cfg E ty ops)
    (scope : Env → Env) (p : Place) (i : Nat) (packed : Bool) (info : FieldInfo)
    (hp : packed = true → ops.isPackable = true) :
    ∃ s, encodeType (ty.inScope scope) p i packed = [.stmt s] ∧ ∀ st v, E (scope st.env) → st.get p = .ok v →
      s.exec cfg st = (FieldOps.encodeType ⟨info, ops⟩ packed i (scope st.env) v st.core.node
        st.core.w >>= wrote st) := by
  have ht := initTrait_eval h scope
  cases h with
  | compound c n =>
    cases packed with
    | true =>
      refine ⟨_, rfl, fun st v hE hv => ?_⟩
      simp only [Stmt.exec, hv, FieldOps.encodeType, Codec.ops, Res.ok_bind, if_true]
      rfl
    | false =>
      refine ⟨_, rfl, fun st v hE hv => ?_⟩
      simp [Stmt.exec, hv, FieldOps.encodeType, Codec.ops, wrote, withNode_self]
  | @scalar name bits length s h =>
    cases packed with
    | true =>
      have hpk : s.isPackable = true := hp rfl
      have key : encodeType (RefTy.inScope scope (.builtin name bits length)) p i true
          = [.stmt (.writeDelta i (initTrait (RefTy.inScope scope (.builtin name bits length)))
              (RefTy.inScope scope (.builtin name bits length)).rust p)] := by
        cases h <;> first | rfl | (exact absurd hpk (by decide))
      refine ⟨_, key, fun st v hE hv => ?_⟩
      simp only [Stmt.exec, hv, ht _ hE, Res.ok_bind, FieldOps.encodeType, if_true, onDelta_eq]
      rfl
    | false =>
      cases h with
      | bits _ h =>
        have hn : bits ≠ 0 := by omega
        refine ⟨.writeUnsignedBits p (.lit bits), by simp [encodeType, RefTy.inScope, hn, lenText],
          fun st v hE hv => ?_⟩
        simp only [Stmt.exec, hv, LenText.eval, Res.ok_bind, FieldOps.encodeType, Scalar.ops,
          Scalar.write]
        cases v <;> first | rfl | simp [wrote, withNode_self]
      | ints _ h =>
        have hn : bits ≠ 0 := by omega
        refine ⟨.writeSignedBits p (.lit bits), by simp [encodeType, RefTy.inScope, hn, lenText],
          fun st v hE hv => ?_⟩
        simp only [Stmt.exec, hv, LenText.eval, Res.ok_bind, FieldOps.encodeType, Scalar.ops,
          Scalar.write]
        cases v <;> first | rfl | simp [wrote, withNode_self]
      | bitsDyn l len h hc =>
        refine ⟨_, rfl, fun st v hE hv => ?_⟩
        simp only [Stmt.exec, hv, Option.map_some, lenText_eval h hc scope _ hE, Res.ok_bind, FieldOps.encodeType,
          Scalar.ops, Scalar.write]
        cases v <;> first | rfl | simp [wrote, withNode_self]
      | intsDyn l len h hc =>
        refine ⟨_, rfl, fun st v hE hv => ?_⟩
        simp only [Stmt.exec, hv, Option.map_some, lenText_eval h hc scope _ hE, Res.ok_bind, FieldOps.encodeType,
          Scalar.ops, Scalar.write]
        cases v <;> first | rfl | simp [wrote, withNode_self]
      | _ =>
        refine ⟨_, rfl, fun st v hE hv => ?_⟩
        simp only [Stmt.exec, hv, Res.ok_bind, FieldOps.encodeType, Scalar.ops, Scalar.write]
        cases v <;> first | rfl | simp [wrote, withNode_self, writeByName]

/-! ## Assertions on parameters -/

theorem AreArgs.length {E : Env → Prop} : ∀ {as : List Arg} {bs : List (Env → Nat → Val)},
    AreArgs E as bs →
    as.length = bs.length
  | [], [], _ => rfl
  | _ :: _, _ :: _, h => by simp [AreArgs.length h.2.2]
  | [], _ :: _, h => h.elim
  | _ :: _, [], h => h.elim

theorem allStmts_assertParams (p : Place) (n : Nat) : ∀ (k : Nat) (as : List Arg),
    AllStmts (assertParams p n k as)
  | _, [] => by simp [AllStmts, assertParams]
  | k, a :: as => by
    intro l hl
    simp only [assertParams, List.mem_cons] at hl
    rcases hl with rfl | hl
    · exact ⟨_, rfl⟩
    · exact allStmts_assertParams p n (k + 1) as l hl

theorem run_asserts {cfg : Cfg} {E : Env → Prop} {scope : Env → Env} {p : Place} {n idx : Nat} {x : Val}
    (hn : x.params.length = n) :
    ∀ {as : List Arg} {bs : List (Env → Nat → Val)} {k : Nat} {st : St}, AreArgs E as bs →
      E (scope st.env) → st.get p = .ok x → k + as.length = n →
      (∀ a ∈ as, a.usesIndex = true → st.loc.index = idx) →
      (Code.ofLines (assertParams p n k (as.map (Arg.inScope scope)))).run cfg st
        = if x.params.drop k = bs.map (fun b => b (scope st.env) idx) then .ok st else .panic
  | [], [], k, st, _, _, hx, hk, _ => by
    have : x.params.drop k = [] := by
      apply List.drop_eq_nil_of_le
      simp only [List.length_nil, Nat.add_zero] at hk
      omega
    simp [assertParams, Code.ofLines, Code.run, this]
  | a :: as, b :: bs, k, st, h, hE, hx, hk, hi => by
    have hlt : k < x.params.length := by simp only [List.length_cons] at hk; omega
    have hv : a.eval (scope st.env) st.loc.index = .ok (b (scope st.env) idx) := by
      rw [h.1 _ _ hE]
      cases hu : a.usesIndex with
      | true => rw [hi a (by simp) hu]
      | false => rw [h.2.1 hu _ _ idx hE]
    have ih := run_asserts (cfg := cfg) (scope := scope) (p := p) hn (as := as) (bs := bs) (k := k + 1)
      (st := st) h.2.2 hE hx (by simp only [List.length_cons] at hk; omega)
      (fun a ha => hi a (by simp [ha]))
    have hd : x.params.drop k = x.params[k] :: x.params.drop (k + 1) :=
      List.drop_eq_getElem_cons hlt
    simp only [List.map_cons, assertParams, Code.ofLines, Code.run, Stmt.exec, hx, Res.ok_bind,
      paramOf, hn, if_true, List.getElem?_eq_getElem hlt, Arg.inScope, hv, hd, List.cons.injEq]
    by_cases he : x.params[k] = b (scope st.env) idx
    · simp only [he, if_true, Res.pure_eq, Res.ok_bind, true_and]
      exact ih
    · simp [he]
  | [], _ :: _, _, _, h, _, _, _, _ => h.elim
  | _ :: _, [], _, _, h, _, _, _, _ => h.elim

/-- The assertions on the parameters of one value. -/
theorem run_checkArgs {cfg : Cfg} {E : Env → Prop} {g : Field} {f : FieldOps} (h : Denotes cfg E g f)
    (scope : Env → Env) {p : Place} {idx : Nat} {st : St} {x : Val}
    (hE : Inside E f (scope st.env)) (hx : st.get p = .ok x)
    (hi : ∀ a ∈ g.args, a.usesIndex = true → st.loc.index = idx) :
    (Code.ofLines (assertParams p (g.inScope scope).ty.numParams 0 (g.inScope scope).args)).run cfg st
      = (f.checkArgs (scope st.env) idx x >>= fun _ => .ok st) := by
  have hl := AreArgs.length h.args
  by_cases hne : g.args = []
  · have : f.info.args = [] := List.length_eq_zero_iff.1 (by rw [← hl, hne]; rfl)
    simp [Field.inScope, hne, assertParams, Code.ofLines, Code.run, FieldOps.checkArgs, this]
  · obtain ⟨c, hc, -⟩ := h.arity hne
    have hn : (g.inScope scope).ty.numParams = g.args.length := by
      simp [Field.inScope, hc, RefTy.inScope, RefTy.numParams]
    have hne' : f.info.args ≠ [] := fun he => hne (List.length_eq_zero_iff.1 (by rw [hl, he]; rfl))
    simp only [FieldOps.checkArgs, List.isEmpty_iff, hne', if_false]
    rw [hn]
    by_cases hlen : x.params.length = g.args.length
    · show (Code.ofLines (assertParams p _ 0 (g.args.map (Arg.inScope scope)))).run cfg st = _
      rw [run_asserts hlen (idx := idx) h.args hE hx (by simp) hi]
      simp only [List.drop_zero, FieldOps.argValues]
      split <;> rename_i hq <;> simp [hq]
    · have hne2 : x.params ≠ f.argValues (scope st.env) idx := by
        intro he
        exact hlen (by rw [he, hl]; simp [FieldOps.argValues])
      simp only [hne2, if_false, Res.panic_bind]
      show (Code.ofLines (assertParams p _ 0 (g.args.map (Arg.inScope scope)))).run cfg st = _
      cases hg : g.args with
      | nil => exact absurd hg hne
      | cons a as =>
        rw [hg] at hlen
        simp only [List.map_cons, assertParams, Code.ofLines, Code.run, Stmt.exec, hx, Res.ok_bind,
          paramOf, hlen, if_false, Res.panic_bind]

theorem St.at'_at' (st : St) (e e' : Val) (j j' : Nat) : (st.at' e j).at' e' j' = st.at' e' j' := rfl

/-- The loop around the assertions. -/
theorem run_checkAll {cfg : Cfg} {E : Env → Prop} {g : Field} {f : FieldOps} (h : Denotes cfg E g f)
    (scope : Env → Env) : ∀ (xs : List Val) (i : Nat) (st : St), Inside E f (scope st.env) →
    ∃ e j, forElements (g.args.any Arg.usesIndex)
      ((Code.ofLines (assertParams .element (g.inScope scope).ty.numParams 0
        (g.inScope scope).args)).run cfg) i xs st
      = (f.checkArgsAll (scope st.env) i xs >>= fun _ => .ok (st.at' e j))
  | [], i, st, _ => ⟨st.loc.element, st.loc.index, rfl⟩
  | x :: xs, i, st, hE => by
    let st' : St := { st with loc := { st.loc with
      element := x, index := if g.args.any Arg.usesIndex then i else st.loc.index } }
    have h1 := run_checkArgs (cfg := cfg) h scope (p := .element) (idx := i) (st := st') (x := x) hE rfl
      (by
        intro a ha hu
        have : g.args.any Arg.usesIndex = true := List.any_eq_true.2 ⟨a, ha, hu⟩
        simp [st', this])
    obtain ⟨e, j, ih⟩ := run_checkAll h scope xs (i + 1) st' hE
    refine ⟨e, j, ?_⟩
    simp only [forElements, FieldOps.checkArgsAll]
    show (Code.run cfg _ st' >>= _) = _
    rw [h1]
    have henv : scope st'.env = scope st.env := rfl
    rw [henv] at ih ⊢
    cases f.checkArgs (scope st.env) i x with
    | ok u =>
      simp only [Res.ok_bind]
      rw [ih]
      rfl
    | err e => rfl
    | panic => rfl

/-! ## The value -/

theorem encodeType_single (ty : RefTy) (p : Place) (i : Nat) (packed : Bool) :
    ∃ s, encodeType ty p i packed = [.stmt s] := by
  unfold encodeType
  repeat' split
  all_goals exact ⟨_, rfl⟩

/-- The tree of `checkParams`. -/
def checkCode (f : Field) (p : Place) (borrowed : Bool) : Code :=
  if f.args.isEmpty then .nil
  else if f.array.isSome then
    Code.blk (if f.args.any Arg.usesIndex then .forEnumerate p else .forElement (!borrowed) p)
      (Code.ofLines (assertParams .element f.ty.numParams 0 f.args))
  else Code.ofLines (assertParams p f.ty.numParams 0 f.args)

theorem lines_checkCode (f : Field) (p : Place) (borrowed : Bool) :
    (checkCode f p borrowed).lines = checkParams f p borrowed := by
  unfold checkCode checkParams
  split
  · rfl
  · split
    · rw [Code.lines_blk, Code.lines_ofLines (allStmts_assertParams _ _ _ _)]
      split <;> simp
    · exact Code.lines_ofLines (allStmts_assertParams _ _ _ _)

/-- The tree of the value of a field. -/
def contentCode (f : Field) (i : Nat) (packed : Bool) (p : Place) (borrowed : Bool) : Code :=
  checkCode f p borrowed ++
  (match f.array with
    | some a =>
      (match a.length with
        | some e => Code.one (.assertLen p e)
        | none => .nil)
      ++ Code.one (.writeArray p (decide (f.offset = .indexed)))
    | none => Code.ofLines (encodeType f.ty p i (packed && f.isPackable)))

/-- What is known about the array when a field is reached. -/
def ArrayReady (f : FieldOps) (packed : Bool) (scope : Env → Env) (st : St) : Prop :=
  ∀ a, f.info.array = some a → st.loc.array = some (f.arrayDef packed (scope st.env) a)

theorem indexed_eq {cfg : Cfg} {E : Env → Prop} {g : Field} {f : FieldOps} (h : Denotes cfg E g f) (scope : Env → Env) :
    decide ((g.inScope scope).offset = .indexed) = f.indexed := by
  unfold FieldOps.indexed
  rw [← h.offset]
  rfl

theorem vecOf_eq {x : Val} : vecOf x = match x with
    | .list xs => .ok xs
    | _ => .panic := by
  cases x <;> rfl

theorem inFront_of {E : Env → Prop} {f : FieldOps} {env : Env} (h : Inside E f env) :
    InFront E f env := ⟨h.1, fun _ => h.2⟩

theorem inside_of {E : Env → Prop} {f : FieldOps} {env : Env} (h : E env)
    (hp : f.present env = true) : Inside E f env := by
  refine ⟨h, fun c hc => ?_⟩
  simpa [FieldOps.present, hc] using hp

/-- The lines of a value do what the schema model says. -/
theorem run_content {cfg : Cfg} {E : Env → Prop} {g : Field} {f : FieldOps} (h : Denotes cfg E g f)
    (scope : Env → Env) {p : Place} (hp : p ≠ .element) (i : Nat) (packed borrowed : Bool) {st : St}
    {x : Val} (hE : Inside E f (scope st.env)) (hx : st.get p = .ok x) (ha : ArrayReady f packed scope st) :
    ((contentCode (g.inScope scope) i packed p borrowed).run cfg st >>= fun st => .ok st.core)
      = (f.encodeContent packed i (scope st.env) x st.core.node st.core.w >>= fun y =>
          .ok { st.core with w := y.1, node := y.2 }) := by
  have hl := AreArgs.length h.args
  have hidx := indexed_eq h scope
  unfold contentCode
  rw [Code.run_append]
  have harr := h.array
  cases hga : g.array with
  | none =>
    have hfa : f.info.array = none := by
      cases hfa : f.info.array with
      | none => rfl
      | some a => rw [hga, hfa] at harr; exact harr.elim
    have hia : (g.inScope scope).array = none := by simp [Field.inScope, hga]
    have hcheck : (checkCode (g.inScope scope) p borrowed).run cfg st
        = (f.checkArgs (scope st.env) 0 x >>= fun _ => .ok st) := by
      have hc := run_checkArgs h scope (p := p) (idx := 0) hE hx (fun a ham hu => by
        rw [h.index hga a ham] at hu; exact absurd hu (by decide))
      unfold checkCode
      split
      · next he =>
        have : (g.inScope scope).args = [] := List.isEmpty_iff.1 he
        rw [← hc, this]
        rfl
      · simp only [hia, Option.isSome_none, Bool.false_eq_true, if_false]
        exact hc
    rw [hcheck]
    simp only [FieldOps.encodeContent, hfa, hia]
    have hpk : (packed && (g.inScope scope).isPackable) = (packed && f.isPackable) := by
      rw [isPackable_eq h]
    have hp' : (packed && f.isPackable) = true → f.ty.isPackable = true := by
      intro hb
      simp only [Bool.and_eq_true] at hb
      have := hb.2
      unfold FieldOps.isPackable at this
      rw [hfa] at this
      split at this
      · exact absurd this (by decide)
      · simpa using this
    obtain ⟨s, hs, hrun⟩ := encodeType_exec h.ty scope p i (packed && f.isPackable) f.info hp'
    rw [hpk, show (g.inScope scope).ty = g.ty.inScope scope from rfl, hs]
    cases f.checkArgs (scope st.env) 0 x with
    | ok u =>
      simp only [Res.ok_bind]
      rw [Code.run_ofLines_one, hrun st x (inFront_of hE) hx]
      show (FieldOps.encodeType f (packed && f.isPackable) i (scope st.env) x st.core.node
        st.core.w >>= wrote st) >>= _ = _
      cases FieldOps.encodeType f (packed && f.isPackable) i (scope st.env) x st.core.node
        st.core.w <;> rfl
    | err e => rfl
    | panic => rfl
  | some a =>
    obtain ⟨b, hfa⟩ : ∃ b, f.info.array = some b := by
      cases hfa : f.info.array with
      | some a => exact ⟨a, rfl⟩
      | none => rw [hga, hfa] at harr; exact harr.elim
    rw [hga, hfa] at harr
    obtain ⟨hpa, hlen⟩ := harr
    have hia : (g.inScope scope).array
        = some ⟨a.isPacked, a.length.map fun l e => l (scope e)⟩ := by simp [Field.inScope, hga]
    simp only [FieldOps.encodeContent, hfa]
    -- what follows the assertions
    have htail : ∀ st' : St, st'.get p = .ok x → st'.core = st.core → st'.loc.array = st.loc.array →
        (((match (g.inScope scope).array with
          | some a =>
            (match a.length with
              | some e => Code.one (.assertLen p e)
              | none => .nil)
            ++ Code.one (.writeArray p (decide ((g.inScope scope).offset = Offset.indexed)))
          | none => Code.ofLines (encodeType (g.inScope scope).ty p i
            (packed && (g.inScope scope).isPackable))).run cfg st') >>= fun st => Res.ok st.core)
        = (match x with
          | .list xs => (do
            FieldOps.checkLength b (scope st.env) xs
            let w ← (f.arrayDef packed (scope st.env) b).zserioWrite st.core.w xs f.indexed
            pure { st.core with w := w })
          | _ => .panic) := by
      intro st' hx' hcore harr'
      have hthe : st'.theArray = .ok (f.arrayDef packed (scope st.env) b) := by
        unfold St.theArray
        rw [harr', ha b hfa]
      have henv : st'.env = st.env := by unfold St.env; rw [hcore]
      rw [hia, hidx]
      simp only
      rw [Code.run_append]
      have hwr : ∀ xs, x = .list xs →
          ((Code.one (.writeArray p f.indexed)).run cfg st' >>= fun st => Res.ok st.core)
          = (do
            let w ← (f.arrayDef packed (scope st.env) b).zserioWrite st.core.w xs f.indexed
            pure { st.core with w := w }) := by
        intro xs hxs
        rw [Code.run_one]
        simp only [Stmt.exec, hx', hxs, vecOf, Res.ok_bind, hthe, hcore]
        cases (f.arrayDef packed (scope st.env) b).zserioWrite st.core.w xs f.indexed with
        | ok w => simp [St.withW, hcore]
        | err e => rfl
        | panic => rfl
      have hwp : (∀ xs, x ≠ .list xs) →
          (Code.one (.writeArray p f.indexed)).run cfg st' = .panic := by
        intro hxs
        rw [Code.run_one]
        have : vecOf x = .panic := by cases x <;> first | rfl | exact absurd rfl (hxs _)
        simp only [Stmt.exec, hx', this, Res.ok_bind, Res.panic_bind]
      cases hal : a.length with
      | none =>
        have hbl : b.length = none := by
          cases hbl : b.length with
          | none => rfl
          | some l => rw [hal, hbl] at hlen; exact hlen.elim
        simp only [Option.map_none, Code.run_nil, Res.ok_bind, FieldOps.checkLength, hbl, Res.pure_eq]
        cases x <;> first | (rw [hwp (by intro xs; simp)]; rfl) | exact hwr _ rfl
      | some l =>
        obtain ⟨m, hbl⟩ : ∃ m, b.length = some m := by
          cases hbl : b.length with
          | some l => exact ⟨l, rfl⟩
          | none => rw [hal, hbl] at hlen; exact hlen.elim
        rw [hal, hbl] at hlen
        simp only [Option.map_some, FieldOps.checkLength, hbl]
        rw [Code.run_one]
        simp only [Stmt.exec, hx', Res.ok_bind, henv, show l (scope st.env) = .ok (m (scope st.env)) from
          hlen _ hE.1]
        cases x <;> first
          | rfl
          | (rename_i xs
             simp only [vecOf, Res.ok_bind]
             by_cases hm : xs.length = m (scope st.env)
             · simp only [hm, if_true, Res.pure_eq, Res.ok_bind]
               exact hwr _ rfl
             · simp only [hm, if_false, Res.panic_bind])
    unfold checkCode
    split
    · next he =>
      have hfe : f.info.args = [] := by
        have : g.args = [] := by simpa [Field.inScope] using he
        exact List.length_eq_zero_iff.1 (by rw [← hl, this]; rfl)
      have hck : ∀ (xs : List Val) (k : Nat), f.checkArgsAll (scope st.env) k xs = .ok () := by
        intro xs
        induction xs with
        | nil => intro k; rfl
        | cons x xs ih => intro k; simp [FieldOps.checkArgsAll, FieldOps.checkArgs, hfe, ih]
      rw [Code.run_nil, Res.ok_bind, htail st hx rfl rfl]
      cases x <;> first | rfl | simp [hck]
    · have hsome : (g.inScope scope).array.isSome = true := by rw [hia]; rfl
      rw [if_pos hsome, Code.run_blk]
      have hany : (g.inScope scope).args.any Arg.usesIndex = g.args.any Arg.usesIndex := by
        simp [Field.inScope, List.any_map, Function.comp_def, Arg.inScope]
      have hhead : Head.exec (if (g.inScope scope).args.any Arg.usesIndex = true then .forEnumerate p
          else .forElement (!borrowed) p)
          ((Code.ofLines (assertParams .element (g.inScope scope).ty.numParams 0
            (g.inScope scope).args)).run cfg) .ok st
          = (vecOf x >>= fun xs => forElements (g.args.any Arg.usesIndex)
            ((Code.ofLines (assertParams .element (g.inScope scope).ty.numParams 0
              (g.inScope scope).args)).run cfg) 0 xs st) := by
        rw [hany]
        cases g.args.any Arg.usesIndex <;>
          simp only [if_true, if_false, Bool.false_eq_true, Head.exec, hx, Res.ok_bind]
      rw [hhead]
      cases x <;> first
        | rfl
        | (rename_i xs
           obtain ⟨e, j, hrun⟩ := run_checkAll h scope xs 0 st hE
           simp only [vecOf, Res.ok_bind]
           rw [hrun]
           have hx2 : (st.at' e j).get p = .ok (.list xs) := by
             rw [← hx]; cases p <;> first | rfl | exact absurd rfl hp
           have := htail (st.at' e j) hx2 rfl rfl
           simp only [] at this
           cases f.checkArgsAll (scope st.env) 0 xs with
           | ok u =>
             simp only [Res.ok_bind]
             rw [this]
             simp
           | err e => rfl
           | panic => rfl)

/-! ## The field -/

/-- The tree of lines around a field: `if {clause} {`, or nothing. -/
def clauseCode (f : Field) (body : Code) : Code :=
  match f.clause with
  | some c => Code.blk (.ifCond c) body
  | none => body

theorem run_clauseCode {cfg : Cfg} {E : Env → Prop} {g : Field} {f : FieldOps} (h : Denotes cfg E g f)
    (scope : Env → Env) (body : Code) (st : St) (hE : E (scope st.env)) :
    (clauseCode (g.inScope scope) body).run cfg st
      = if f.present (scope st.env) then body.run cfg st else .ok st := by
  have hc := h.clause
  unfold clauseCode FieldOps.present
  cases hg : g.clause with
  | none =>
    cases hf : f.info.clause with
    | none => simp [Field.inScope, hg]
    | some b => rw [hg, hf] at hc; exact hc.elim
  | some a =>
    cases hf : f.info.clause with
    | none => rw [hg, hf] at hc; exact hc.elim
    | some b =>
      rw [hg, hf] at hc
      simp only [Field.inScope, hg, Option.map_some, Code.run_blk, Head.exec]
      rw [show a (scope st.env) = .ok (b (scope st.env)) from hc _ hE]
      rfl

/-- The alignment lines of the writer. -/
def alignCodeW (f : Field) : Code :=
  (if f.alignment ≠ 0 then Code.one (.alignWriter f.alignment) else .nil)
  ++ (if f.offset = .plain then Code.one (.alignWriter 8) else .nil)

theorem lines_alignCodeW (f : Field) : (alignCodeW f).lines
    = (if f.alignment ≠ 0 then [.stmt (.alignWriter f.alignment)] else [])
      ++ (if f.offset = .plain then [.stmt (.alignWriter 8)] else []) := by
  unfold alignCodeW
  rw [Code.lines_append]
  split <;> split <;> rfl

theorem run_alignCodeW {cfg : Cfg} {E : Env → Prop} {g : Field} {f : FieldOps} (h : Denotes cfg E g f)
    (scope : Env → Env) (st : St) :
    (alignCodeW (g.inScope scope)).run cfg st
      = (f.alignWriter st.core.w >>= fun w => .ok (st.withW w)) := by
  unfold alignCodeW FieldOps.alignWriter
  rw [Code.run_append]
  have h1 : (g.inScope scope).alignment = f.info.alignment := h.alignment
  have h2 : (g.inScope scope).offset = f.info.offset := h.offset
  rw [h1, h2]
  have h3 : ∀ st : St, (if f.info.offset = .plain then Code.one (.alignWriter 8) else .nil).run cfg st
      = ((if f.info.offset = .plain then Zs.alignWriter st.core.w 8 else pure st.core.w) >>= fun w =>
        .ok (st.withW w)) := by
    intro st
    split
    · rw [Code.run_one]; rfl
    · rw [Code.run_nil]; rfl
  by_cases ha : f.info.alignment = 0
  · simp only [ha, ne_eq, not_true_eq_false, if_false, Code.run_nil, Res.ok_bind, if_true, Res.pure_eq]
    exact h3 st
  · simp only [ha, ne_eq, not_false_eq_true, if_true, if_false, Code.run_one, Stmt.exec]
    cases Zs.alignWriter st.core.w f.info.alignment with
    | ok w =>
      simp only [Res.ok_bind, Res.pure_eq]
      rw [h3]
      rfl
    | err e => rfl
    | panic => rfl

/-- The tree of `encode_field`. -/
def encodeCode (f : Field) (i : Nat) (packed : Bool) : Code :=
  clauseCode f (alignCodeW f ++
    if f.optional then
      Code.ite (.ifLet f.requiresBorrowing (.self i))
        (Code.one (.writeBoolLit true) ++ contentCode f i packed .x f.requiresBorrowing)
        (Code.one (.writeBoolLit false))
    else contentCode f i packed (.self i) false)

theorem lines_contentCode (f : Field) (i : Nat) (packed : Bool) (p : Place) (borrowed : Bool) :
    (contentCode f i packed p borrowed).lines = checkParams f p borrowed ++
      (match f.array with
        | some a =>
          (match a.length with
            | some e => [.stmt (.assertLen p e)]
            | none => [])
          ++ [.stmt (.writeArray p (decide (f.offset = .indexed)))]
        | none => encodeType f.ty p i (packed && f.isPackable)) := by
  unfold contentCode
  rw [Code.lines_append, lines_checkCode]
  congr 1
  cases f.array with
  | none =>
    obtain ⟨s, hs⟩ := encodeType_single f.ty p i (packed && f.isPackable)
    simp only [hs]
    rfl
  | some a =>
    simp only [Code.lines_append]
    cases a.length <;> rfl

theorem lines_encodeCode (f : Field) (i : Nat) (packed : Bool) :
    (encodeCode f i packed).lines = encodeField f i packed := by
  unfold encodeCode encodeField clauseCode
  cases hc : f.clause <;> cases ho : f.optional <;>
    simp only [Code.lines_blk, Code.lines_append, lines_alignCodeW, lines_contentCode,
      Bool.false_eq_true, if_false, if_true, Code.lines_ite, Code.lines_one, Option.isSome_none,
      Option.isSome_some, Bool.false_and, Bool.true_and] <;>
    simp [List.append_assoc] <;> cases f.array <;> rfl

theorem run_encodeCode {cfg : Cfg} {E : Env → Prop} {g : Field} {f : FieldOps} (h : Denotes cfg E g f)
    (scope : Env → Env) (i : Nat) (packed : Bool) {st : St} {v : Val}
    (hE : E (scope st.env)) (hv : st.core.fields[i]? = some v) (ha : ArrayReady f packed scope st) :
    ((encodeCode (g.inScope scope) i packed).run cfg st >>= fun st => .ok st.core)
      = (f.encode packed i (scope st.env) v st.core.node st.core.w >>= fun y =>
          .ok { st.core with w := y.1, node := y.2 }) := by
  unfold encodeCode FieldOps.encode
  rw [run_clauseCode h _ _ _ hE]
  split
  · rename_i hpres
    have hin := inside_of hE hpres
    rw [Code.run_append, run_alignCodeW h]
    cases f.alignWriter st.core.w with
    | err e => rfl
    | panic => rfl
    | ok w =>
      simp only [Res.ok_bind]
      have hget : (st.withW w).get (.self i) = .ok v := by
        show (match st.core.fields[i]? with | some v => Res.ok v | none => .panic) = _
        rw [hv]
      have ho : (g.inScope scope).optional = f.info.optional := h.optional
      unfold FieldOps.encodeOptional
      rw [ho]
      cases hopt : f.info.optional with
      | false =>
        simp only [Bool.false_eq_true, if_false]
        have := run_content h scope (p := .self i) (by simp) i packed false (st := st.withW w) hin hget ha
        rw [this]
        rfl
      | true =>
        simp only [if_true]
        rw [Code.run_ite]
        simp only [Head.exec, hget, Res.ok_bind]
        cases v <;> first
          | rfl
          | (rename_i x
             simp only [Code.run_append, Code.run_one, Stmt.exec, St.withW]
             cases w.writeBool true with
             | err e => rfl
             | panic => rfl
             | ok w' =>
               have := run_content h scope (p := .x) (by simp) i packed
                 (g.inScope scope).requiresBorrowing (x := x)
                 (st := ⟨{ st.core with w := w' }, { st.loc with x := x }⟩) hin rfl ha
               simp only [Res.ok_bind, Res.pure_eq]
               exact this)
          | (simp only [Code.run_one, Stmt.exec, St.withW]
             cases w.writeBool false <;> rfl)
  · rfl

/-! ## Arrays -/

/-- The array declared in front of a field is that of the schema model. -/
theorem run_instantiateArray {cfg : Cfg} {E : Env → Prop} {g : Field} {f : FieldOps} (h : Denotes cfg E g f)
    (scope : Env → Env) (packed : Bool) (st : St) (hE : E (scope st.env)) :
    ∃ arr, (Code.ofLines (instantiateArray (g.inScope scope) packed)).run cfg st
        = .ok { st with loc := { st.loc with array := arr } } ∧
      ArrayReady f packed scope { st with loc := { st.loc with array := arr } } := by
  have harr := h.array
  unfold instantiateArray
  cases hga : g.array with
  | none =>
    have hfa : f.info.array = none := by
      cases hfa : f.info.array with
      | none => rfl
      | some a => rw [hga, hfa] at harr; exact harr.elim
    have hia : (g.inScope scope).array = none := by simp [Field.inScope, hga]
    refine ⟨st.loc.array, ?_, fun a ha => ?_⟩
    · rw [hia]; rfl
    · rw [hfa] at ha; exact absurd ha (by simp)
  | some a =>
    obtain ⟨b, hfa⟩ : ∃ b, f.info.array = some b := by
      cases hfa : f.info.array with
      | some a => exact ⟨a, rfl⟩
      | none => rw [hga, hfa] at harr; exact harr.elim
    rw [hga, hfa] at harr
    obtain ⟨hpa, hlen⟩ := harr
    have hia : (g.inScope scope).array
        = some ⟨a.isPacked, a.length.map fun l e => l (scope e)⟩ := by simp [Field.inScope, hga]
    refine ⟨some (f.arrayDef packed (scope st.env) b), ?_, fun c hc => ?_⟩
    · rw [hia]
      simp only
      rw [Code.run_ofLines_one]
      simp only [Stmt.exec]
      rw [show (g.inScope scope).ty = g.ty.inScope scope from rfl, initTrait_eval h.ty scope st.env
        ⟨hE, fun hn => by rw [hfa] at hn; exact absurd hn (by simp)⟩]
      simp only [Res.ok_bind, isPackable_eq h, hpa]
      cases hal : a.length with
      | none =>
        have hbl : b.length = none := by
          cases hbl : b.length with
          | none => rfl
          | some l => rw [hal, hbl] at hlen; exact hlen.elim
        simp [FieldOps.arrayDef, hbl]
      | some l =>
        obtain ⟨m, hbl⟩ : ∃ m, b.length = some m := by
          cases hbl : b.length with
          | some l => exact ⟨l, rfl⟩
          | none => rw [hal, hbl] at hlen; exact hlen.elim
        rw [hal, hbl] at hlen
        simp [FieldOps.arrayDef, hbl, show l (scope st.env) = .ok (m (scope st.env)) from hlen _ hE]
    · rw [hfa] at hc
      cases hc
      rfl

theorem lines_instantiateArray (f : Field) (packed : Bool) :
    (Code.ofLines (instantiateArray f packed)).lines = instantiateArray f packed := by
  unfold instantiateArray
  cases f.array <;> rfl

end Emit

end Zs
