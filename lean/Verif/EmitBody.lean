import Verif.EmitBitsize

/-!
# The lines emitted for packing contexts, and whole function bodies
-/

namespace Zs

namespace Emit

open Spec

/-! ## Packing contexts of a field -/

/-- `let` of a context and its use are one access. -/
theorem onDelta_twice {β : Type} (n : Node) (i : Nat) (f : DeltaContext → Res (β × DeltaContext)) :
    (onDelta n i (fun d => pure ((), d)) >>= fun _ => onDelta n i f) = onDelta n i f := by
  obtain ⟨cs, c⟩ := n
  simp only [onDelta, Node.onChild]
  cases cs[i]? with
  | none => rfl
  | some child =>
    obtain ⟨ds, d⟩ := child
    cases d <;> rfl

/-- The tree that initialises the context of a value. -/
def initContentCode (f : Field) (i : Nat) (p : Place) : Code :=
  match f.ty with
  | .compound c _ => Code.one (.initObject c p i)
  | .builtin _ _ _ =>
    if f.isPackable then
      Code.one (.letDelta i) ++ Code.one (.initDelta (initTrait f.ty) f.ty.rust p)
    else .nil

theorem run_initContent {cfg : Cfg} {E : Env → Prop} {g : Field} {f : FieldOps} (h : Denotes cfg E g f)
    (scope : Env → Env) (i : Nat) {p : Place} {st : St} {x : Val}
    (hE : Inside E f (scope st.env)) (hx : st.get p = .ok x)
    (hp : f.ty.isMarshaler = true ∨ f.isPackable = true) :
    ((initContentCode (g.inScope scope) i p).run cfg st >>= fun st => .ok st.core)
      = (f.initContent i (scope st.env) x st.core.node >>= fun n =>
          .ok { st.core with node := n }) := by
  have hpk := isPackable_eq h scope
  have hty := h.ty
  have hE := inFront_of hE
  unfold initContentCode FieldOps.initContent
  rw [hpk, show (g.inScope scope).ty = g.ty.inScope scope from rfl]
  generalize f.isPackable = pk at *
  generalize g.ty = ty at *
  generalize f.ty = ops at *
  generalize InFront E f = E at *
  have ht := initTrait_eval hty scope
  cases hty with
  | compound c n =>
    simp only [RefTy.inScope, Code.run_one, Stmt.exec, hx, Res.ok_bind, Codec.ops]
    cases Node.onChild st.core.node i (fun n => do
      let n ← c.initContext x n
      pure ((), n)) <;> rfl
  | @scalar name bits length s hs =>
    have hpk : pk = true := hp.resolve_left (by simp [Scalar.ops])
    subst hpk
    simp only [RefTy.inScope, if_true]
    rw [Code.run_append, Code.run_one]
    have hx' : St.get { st with loc := { st.loc with delta := i } } p = .ok x := by
      rw [← hx]; cases p <;> rfl
    have hd : (Stmt.letDelta i).exec cfg st
        = (onDelta st.core.node i (fun d => pure ((), d)) >>= fun _ =>
          .ok { st with loc := { st.loc with delta := i } }) := rfl
    rw [hd]
    have htr := ht st.env hE
    rw [show RefTy.inScope scope (.builtin name bits length)
      = .builtin name bits (length.map fun l => ⟨fun e => l.eval (scope e), l.cast⟩) from rfl] at htr
    have hrun : (Code.one (.initDelta (initTrait (.builtin name bits
          (length.map fun l => ⟨fun e => l.eval (scope e), l.cast⟩)))
          (RefTy.builtin name bits (length.map fun l => ⟨fun e => l.eval (scope e), l.cast⟩)).rust p)).run
          cfg { st with loc := { st.loc with delta := i } }
        = (onDelta st.core.node i (fun d => do
            let d ← d.init (s.elem cfg (scope st.env)) x
            pure ((), d)) >>= fun y =>
          .ok { st with core := { st.core with node := y.2 }, loc := { st.loc with delta := i } }) := by
      rw [Code.run_one]
      simp only [Stmt.exec]
      rw [show St.env { st with loc := { st.loc with delta := i } } = st.env from rfl, htr]
      simp only [Res.ok_bind, hx']
      rfl
    have key : ((onDelta st.core.node i (fun d => pure ((), d)) >>= fun _ =>
          Res.ok { st with loc := { st.loc with delta := i } }) >>= fun st' =>
          (Code.one (.initDelta (initTrait (.builtin name bits
            (length.map fun l => ⟨fun e => l.eval (scope e), l.cast⟩)))
            (RefTy.builtin name bits
              (length.map fun l => ⟨fun e => l.eval (scope e), l.cast⟩)).rust p)).run cfg st')
        = (onDelta st.core.node i (fun d => do
            let d ← d.init (s.elem cfg (scope st.env)) x
            pure ((), d)) >>= fun y =>
          .ok { st with core := { st.core with node := y.2 }, loc := { st.loc with delta := i } }) := by
      rw [← onDelta_twice st.core.node i (fun d => (d.init (s.elem cfg (scope st.env)) x >>= fun d =>
        pure ((), d) : Res (Unit × DeltaContext)))]
      cases onDelta st.core.node i (fun d => pure ((), d)) with
      | ok y =>
        simp only [Res.ok_bind]
        exact hrun
      | err e => rfl
      | panic => rfl
    refine Eq.trans (congrArg (fun y => y >>= fun st : St => Res.ok st.core) key) ?_
    have hd2 : (fun c : Node => c.onContext fun d => do
          let d ← d.init (s.elem cfg (scope st.env)) x
          pure ((), d))
        = (fun c : Node => do
          let c ← (s.ops cfg).initContext (scope st.env) x c
          pure ((), c)) := by
      funext c
      simp only [Scalar.ops, Elem.packable]
      obtain ⟨cs, d⟩ := c
      cases d with
      | none => rfl
      | some d =>
        simp only [Node.onContext]
        cases d.init (s.elem cfg (scope st.env)) x <;> rfl
    rw [onDelta_eq, hd2]
    cases Node.onChild st.core.node i _ <;> rfl

/-- The tree of `generate_init_packed_context_for_field`. -/
def initCode (f : Field) (i : Nat) : Code :=
  if f.array.isSome then .nil
  else if !f.ty.isMarshaler && !f.isPackable then .nil
  else clauseCode f (if f.optional then
      Code.blk (.ifLet f.requiresBorrowing (.self i)) (initContentCode f i .x)
    else initContentCode f i (.self i))

theorem lines_initContentCode (f : Field) (i : Nat) (p : Place) : (initContentCode f i p).lines
    = (match f.ty with
      | .compound c _ => [.stmt (.initObject c p i)]
      | .builtin _ _ _ =>
        if f.isPackable then
          [.stmt (.letDelta i), .stmt (.initDelta (initTrait f.ty) f.ty.rust p)] else []) := by
  unfold initContentCode
  cases f.ty with
  | compound c n => rfl
  | builtin _ _ _ =>
    simp only
    split <;> rfl

theorem lines_initCode (f : Field) (i : Nat) : (initCode f i).lines = initContextField f i := by
  unfold initCode initContextField clauseCode
  split
  · rfl
  · split
    · rfl
    · cases hc : f.clause <;> cases ho : f.optional <;>
        simp only [Code.lines_blk, lines_initContentCode, Bool.false_eq_true, if_false, if_true,
          Option.isSome_none, Option.isSome_some] <;>
        simp [List.append_assoc] <;> cases f.ty <;> rfl

theorem marshaler_eq {cfg : Cfg} {E : Env → Prop} {g : Field} {f : FieldOps} (h : Denotes cfg E g f)
    (scope : Env → Env) : (g.inScope scope).ty.isMarshaler = f.ty.isMarshaler := by
  have := h.ty
  simp only [Field.inScope]
  generalize g.ty = ty, f.ty = ops at this ⊢
  cases this <;> rfl

theorem array_isSome {cfg : Cfg} {E : Env → Prop} {g : Field} {f : FieldOps} (h : Denotes cfg E g f)
    (scope : Env → Env) : (g.inScope scope).array.isSome = f.info.array.isSome := by
  have := h.array
  simp only [Field.inScope]
  cases hg : g.array <;> cases hf : f.info.array <;> simp_all [IsArray]

theorem run_initCode {cfg : Cfg} {E : Env → Prop} {g : Field} {f : FieldOps} (h : Denotes cfg E g f)
    (scope : Env → Env) (i : Nat) {st : St} {v : Val}
    (hE : E (scope st.env)) (hv : st.core.fields[i]? = some v) :
    ((initCode (g.inScope scope) i).run cfg st >>= fun st => .ok st.core)
      = (f.initContext i (scope st.env) v st.core.node >>= fun n =>
          .ok { st.core with node := n }) := by
  have hget : st.get (.self i) = .ok v := by simp only [St.get, hv]
  unfold initCode FieldOps.initContext
  rw [array_isSome h, marshaler_eq h, isPackable_eq h]
  split
  · rfl
  · split
    · rfl
    · next hnp =>
      have hp : f.ty.isMarshaler = true ∨ f.isPackable = true := by
        cases h1 : f.ty.isMarshaler <;> cases h2 : f.isPackable <;> simp_all
      rw [run_clauseCode h _ _ _ hE]
      split
      · rename_i hpres
        have hin := inside_of hE hpres
        have ho : (g.inScope scope).optional = f.info.optional := h.optional
        rw [ho]
        cases hopt : f.info.optional with
        | false =>
          simp only [Bool.false_eq_true, if_false]
          exact run_initContent h scope i hin hget hp
        | true =>
          simp only [if_true]
          rw [Code.run_blk]
          simp only [Head.exec, hget, Res.ok_bind]
          cases v <;> first
            | rfl
            | (rename_i x
               exact run_initContent h scope i (p := .x) (x := x)
                 (st := { st with loc := { st.loc with x := x } }) hin rfl hp)
      · rfl

theorem allStmts_createContextField (f : Field) : AllStmts (createContextField f) := by
  intro l hl
  unfold createContextField at hl
  simp only [List.mem_append, List.mem_cons, List.not_mem_nil, or_false] at hl
  rcases hl with (rfl | hl) | rfl
  · exact ⟨_, rfl⟩
  · · split at hl
      · simp at hl
      · cases hty : f.ty with
        | compound c n => simp only [hty, List.mem_singleton] at hl; exact ⟨_, hl⟩
        | builtin _ _ _ =>
          simp only [hty] at hl
          split at hl
          · simp only [List.mem_singleton] at hl; exact ⟨_, hl⟩
          · simp at hl
  · exact ⟨_, rfl⟩

theorem inScope_id (g : Field) : g.inScope id = g := by
  obtain ⟨ty, o, c, al, off, arr, args, io⟩ := g
  simp only [Field.inScope, id]
  congr
  · cases ty with
    | compound c n => rfl
    | builtin name bits l => cases l <;> rfl
  · cases c <;> rfl
  · cases arr with
    | none => rfl
    | some a =>
      obtain ⟨p, l⟩ := a
      cases l <;> rfl
  · exact List.map_id' args

theorem run_createContextField {cfg : Cfg} {E : Env → Prop} {g : Field} {f : FieldOps} (h : Denotes cfg E g f) (st : St) :
    ((Code.ofLines (createContextField g)).run cfg st >>= fun st => .ok st.core)
      = .ok { st.core with
          node := .mk (st.core.node.children ++ [f.createContext]) st.core.node.context } := by
  have h1 := array_isSome h id
  have h2 := isPackable_eq h id
  rw [inScope_id] at h1 h2
  unfold createContextField FieldOps.createContext
  rw [h1, h2]
  split
  · rfl
  · have := h.ty
    generalize f.isPackable = pk
    generalize g.ty = ty, f.ty = ops at this ⊢
    cases this with
    | compound c n => rfl
    | scalar hs => cases pk <;> rfl

/-! ## Sequences of fields -/

/-- Execution in sequence, looking at what outlives the function. -/
theorem seq_core {β : Type} {cfg : Cfg} {a b : Code} {st : St} {R : Res β} {upd : β → Core}
    {K : β → Res Core} (h1 : (a.run cfg st >>= fun st => .ok st.core) = (R >>= fun y => .ok (upd y)))
    (h2 : ∀ y, R = .ok y → ∀ st' : St, st'.core = upd y →
      (b.run cfg st' >>= fun st => .ok st.core) = K y) :
    ((a ++ b).run cfg st >>= fun st => .ok st.core) = (R >>= K) := by
  rw [Code.run_append]
  cases R with
  | ok y =>
    cases ha : a.run cfg st with
    | ok st' =>
      rw [ha] at h1
      simp only [Res.ok_bind, Res.ok.injEq] at h1
      exact h2 y rfl st' h1
    | err e => rw [ha] at h1; simp at h1
    | panic => rw [ha] at h1; simp at h1
  | err e =>
    cases ha : a.run cfg st with
    | ok st' => rw [ha] at h1; simp at h1
    | err e => rw [ha] at h1; simpa using h1
    | panic => rw [ha] at h1; simp at h1
  | panic =>
    cases ha : a.run cfg st with
    | ok st' => rw [ha] at h1; simp at h1
    | err e => rw [ha] at h1; simp at h1
    | panic => rfl

/-- A field with the array in front of it. -/
def fieldCode (gc : Field → Nat → Bool → Code) (packed : Bool) (i : Nat) (f : Field) : Code :=
  Code.ofLines (instantiateArray f packed) ++ gc f i packed

theorem lines_fieldCode {gc : Field → Nat → Bool → Code} {gl : Field → Nat → Bool → List Line}
    (hl : ∀ f i packed, (gc f i packed).lines = gl f i packed) (packed : Bool) (i : Nat) (f : Field) :
    (fieldCode gc packed i f).lines = instantiateArray f packed ++ gl f i packed := by
  unfold fieldCode
  rw [Code.lines_append, lines_instantiateArray, hl]

/-- What lines for a field do, given the content of the field, the environment of its expressions and
what outlives the function. -/
abbrev FieldDoes := FieldOps → Nat → Env → Val → Core → Res Core

/-- The tree `gc` does `R`, for all fields with values of their types. -/
def Does (cfg : Cfg) (gc : Field → Nat → Bool → Code) (packed : Bool) (R : FieldDoes) : Prop :=
  ∀ {E : Env → Prop} {g : Field} {f : FieldOps}, Denotes cfg E g f → ∀ {scope : Env → Env} {i : Nat},
    Stable scope (.self i) → ∀ {st : St} {v : Val}, E (scope st.env) → st.core.fields[i]? = some v →
    HasType g v → ArrayReady f packed scope st →
    ((gc (g.inScope scope) i packed).run cfg st >>= fun st => .ok st.core)
      = R f i (scope st.env) v st.core

/-- Writing. -/
def writeDoes (packed : Bool) : FieldDoes := fun f i env v k =>
  f.encode packed i env v k.node k.w >>= fun y => .ok { k with w := y.1, node := y.2 }

/-- Reading. -/
def readDoes (cfg : Cfg) (packed : Bool) : FieldDoes := fun f i env v k =>
  f.decode cfg packed i env v k.node k.r >>= fun x =>
    .ok { k with r := x.2, node := x.1.2, fields := k.fields.set i x.1.1 }

/-- Sizes. -/
def sizeDoes (packed : Bool) : FieldDoes := fun f i env v k =>
  f.bitsize packed i env v k.node k.pos >>= fun y => .ok { k with pos := y.1, node := y.2 }

theorem does_write (cfg : Cfg) (packed : Bool) : Does cfg encodeCode packed (writeDoes packed) :=
  fun h _ _ _ _ _ hE hv _ ha => run_encodeCode h _ _ packed hE hv ha

theorem HasType.list {g : Field} {v : Val} (h : HasType g v) (ha : g.array.isSome = true)
    (ho : g.optional = false) : ∃ xs, v = .list xs := by
  unfold HasType HasContent at h
  rw [ho, ha] at h
  simpa using h

theorem does_read (cfg : Cfg) (packed : Bool) : Does cfg decodeCode packed (readDoes cfg packed) :=
  fun h _ _ hs _ _ hE hv ht ha => run_decodeCode h hs packed hE hv ha (fun h1 h2 => HasType.list ht h1 h2)

theorem does_size (cfg : Cfg) (packed : Bool) : Does cfg bitsizeCode packed (sizeDoes packed) :=
  fun h _ _ _ _ _ hE hv ht ha => run_bitsizeCode h _ _ packed hE hv ha ht

/-- A field with the array in front of it. -/
theorem run_fieldCode {cfg : Cfg} {gc : Field → Nat → Bool → Code} {packed : Bool} {R : FieldDoes}
    (hR : Does cfg gc packed R) {E : Env → Prop} {g : Field} {f : FieldOps} (h : Denotes cfg E g f) {scope : Env → Env}
    {i : Nat} (hs : Stable scope (.self i)) {st : St} {v : Val} (hE : E (scope st.env)) (hv : st.core.fields[i]? = some v)
    (ht : HasType g v) :
    ((fieldCode gc packed i (g.inScope scope)).run cfg st >>= fun st => .ok st.core)
      = R f i (scope st.env) v st.core := by
  obtain ⟨arr, hrun, ha⟩ := run_instantiateArray h scope packed st hE
  unfold fieldCode
  rw [Code.run_append, hrun, Res.ok_bind]
  exact hR h hs (st := { st with loc := { st.loc with array := arr } }) hE hv ht ha

/-- The tree of the fields of a structure. -/
def structCode (gc : Field → Nat → Bool → Code) (packed : Bool) : Nat → List Field → Code
  | _, [] => .nil
  | i, g :: gs => fieldCode gc packed i (g.inScope (before i)) ++ structCode gc packed (i + 1) gs

theorem lines_structCode {gc : Field → Nat → Bool → Code} {gl : Field → Nat → Bool → List Line}
    (hl : ∀ f i packed, (gc f i packed).lines = gl f i packed) (packed : Bool) :
    ∀ (gs : List Field) (i : Nat), (structCode gc packed i gs).lines = structLines gl packed i gs
  | [], _ => rfl
  | g :: gs, i => by
    unfold structCode structLines
    rw [Code.lines_append, lines_fieldCode hl, lines_structCode hl packed gs (i + 1)]

theorem before_env {st : St} {done vs : List Val} (h : st.core.fields = done ++ vs) :
    before done.length st.env = ⟨st.core.params, done⟩ := by
  simp only [before, St.env, h, List.take_left]

theorem getElem?_done {done vs : List Val} {v : Val} : (done ++ v :: vs)[done.length]? = some v := by
  simp

theorem run_structWrite {cfg : Cfg} {E : Nat → Env → Prop} (packed : Bool) : ∀ {gs : List Field} {fs : List FieldOps},
    ∀ (done vs : List Val) (st : St), DenoteAll cfg E done.length gs fs → st.core.fields = done ++ vs →
    HaveTypes gs vs →
    (∀ j < done.length + gs.length, E j ⟨st.core.params, (done ++ vs).take j⟩) →
    ((structCode encodeCode packed done.length gs).run cfg st >>= fun st => .ok st.core)
      = (encodeFields packed st.core.params fs done.length done vs st.core.node st.core.w >>= fun y =>
          .ok { st.core with w := y.1, node := y.2 })
  | [], [], done, vs, st, _, hf, ht, _ => by
    cases vs with
    | nil => rfl
    | cons _ _ => exact ht.elim
  | g :: gs, f :: fs, done, [], st, h, hf, ht, _ => ht.elim
  | g :: gs, f :: fs, done, v :: vs, st, h, hf, ht, hE => by
    have hE0 : E done.length (before done.length st.env) := by
      rw [before_env hf]
      simpa using hE done.length (by simp)
    unfold structCode encodeFields
    have h1 := run_fieldCode (does_write cfg packed) h.1 (stable_before done.length) (st := st) (v := v) hE0
      (by rw [hf]; exact getElem?_done) ht.1
    rw [before_env hf] at h1
    refine (seq_core h1 (K := fun y => encodeFields packed st.core.params fs (done.length + 1)
      (done ++ [v]) vs y.2 y.1 >>= fun z => .ok { st.core with w := z.1, node := z.2 }) ?_).trans ?_
    · intro y _ st' hst'
      have hf' : st'.core.fields = (done ++ [v]) ++ vs := by rw [hst']; simp [hf]
      have ih := run_structWrite packed (done ++ [v]) vs st' (by simpa using h.2) hf' ht.2
        (by rw [hst']; intro j hj; simpa using hE j (by simp at hj ⊢; omega))
      simp only [List.length_append, List.length_cons, List.length_nil, Nat.zero_add] at ih
      rw [ih, hst']
    · cases f.encode packed done.length ⟨st.core.params, done⟩ v st.core.node st.core.w <;> rfl
  | [], _ :: _, _, _, _, h, _, _, _ => h.elim
  | _ :: _, [], _, _, _, h, _, _, _ => h.elim

theorem run_structSize {cfg : Cfg} {E : Nat → Env → Prop} (packed : Bool) : ∀ {gs : List Field} {fs : List FieldOps},
    ∀ (done vs : List Val) (st : St), DenoteAll cfg E done.length gs fs → st.core.fields = done ++ vs →
    HaveTypes gs vs →
    (∀ j < done.length + gs.length, E j ⟨st.core.params, (done ++ vs).take j⟩) →
    ((structCode bitsizeCode packed done.length gs).run cfg st >>= fun st => .ok st.core)
      = (bitsizeFields packed st.core.params fs done.length done vs st.core.node st.core.pos >>= fun y =>
          .ok { st.core with pos := y.1, node := y.2 })
  | [], [], done, vs, st, _, hf, ht, _ => by
    cases vs with
    | nil => rfl
    | cons _ _ => exact ht.elim
  | g :: gs, f :: fs, done, [], st, h, hf, ht, _ => ht.elim
  | g :: gs, f :: fs, done, v :: vs, st, h, hf, ht, hE => by
    have hE0 : E done.length (before done.length st.env) := by
      rw [before_env hf]
      simpa using hE done.length (by simp)
    unfold structCode bitsizeFields
    have h1 := run_fieldCode (does_size cfg packed) h.1 (stable_before done.length) (st := st) (v := v) hE0
      (by rw [hf]; exact getElem?_done) ht.1
    rw [before_env hf] at h1
    refine (seq_core h1 (K := fun y => bitsizeFields packed st.core.params fs (done.length + 1)
      (done ++ [v]) vs y.2 y.1 >>= fun z => .ok { st.core with pos := z.1, node := z.2 }) ?_).trans ?_
    · intro y _ st' hst'
      have hf' : st'.core.fields = (done ++ [v]) ++ vs := by rw [hst']; simp [hf]
      have ih := run_structSize packed (done ++ [v]) vs st' (by simpa using h.2) hf' ht.2
        (by rw [hst']; intro j hj; simpa using hE j (by simp at hj ⊢; omega))
      simp only [List.length_append, List.length_cons, List.length_nil, Nat.zero_add] at ih
      rw [ih, hst']
    · cases f.bitsize packed done.length ⟨st.core.params, done⟩ v st.core.node st.core.pos <;> rfl
  | [], _ :: _, _, _, _, h, _, _, _ => h.elim
  | _ :: _, [], _, _, _, h, _, _, _ => h.elim

theorem run_structRead {cfg : Cfg} {E : Nat → Env → Prop} (packed : Bool) : ∀ {gs : List Field} {fs : List FieldOps},
    ∀ (done vs : List Val) (st : St), DenoteAll cfg E done.length gs fs → st.core.fields = done ++ vs →
    HaveTypes gs vs →
    ReadsIn cfg E packed st.core.params fs done.length done vs st.core.node st.core.r →
    ((structCode decodeCode packed done.length gs).run cfg st >>= fun st => .ok st.core)
      = (decodeFields cfg packed st.core.params fs done.length done vs st.core.node st.core.r >>=
          fun x => .ok { st.core with r := x.2, node := x.1.2, fields := x.1.1 })
  | [], [], done, vs, st, _, hf, ht, _ => by
    cases vs with
    | nil =>
      simp only [List.append_nil] at hf
      simp only [structCode, Code.run_nil, decodeFields, Res.ok_bind, Res.pure_eq, ← hf]
    | cons _ _ => exact ht.elim
  | g :: gs, f :: fs, done, [], st, h, hf, ht, _ => ht.elim
  | g :: gs, f :: fs, done, v :: vs, st, h, hf, ht, hE => by
    have hE0 : E done.length (before done.length st.env) := by
      rw [before_env hf]; exact hE.1
    unfold structCode decodeFields
    have h1 := run_fieldCode (does_read cfg packed) h.1 (stable_before done.length) (st := st) (v := v) hE0
      (by rw [hf]; exact getElem?_done) ht.1
    rw [before_env hf] at h1
    refine (seq_core h1 (K := fun y => decodeFields cfg packed st.core.params fs (done.length + 1)
      (done ++ [y.1.1]) vs y.1.2 y.2 >>= fun z =>
        .ok { st.core with r := z.2, node := z.1.2, fields := z.1.1 }) ?_).trans ?_
    · intro y hy st' hst'
      have hf' : st'.core.fields = (done ++ [y.1.1]) ++ vs := by rw [hst']; simp [hf]
      have ih := run_structRead packed (done ++ [y.1.1]) vs st' (by simpa using h.2) hf' ht.2
        (by rw [hst']; simpa using hE.2 y hy)
      simp only [List.length_append, List.length_cons, List.length_nil, Nat.zero_add] at ih
      rw [ih, hst']
    · cases f.decode cfg packed done.length ⟨st.core.params, done⟩ v st.core.node st.core.r <;> rfl
  | [], _ :: _, _, _, _, h, _, _, _ => h.elim
  | _ :: _, [], _, _, _, h, _, _, _ => h.elim

/-- The tree of `zserio_init_packing_context`. -/
def initsCode (scope : Nat → Env → Env) : Nat → List Field → Code
  | _, [] => .nil
  | i, g :: gs => initCode (g.inScope (scope i)) i ++ initsCode scope (i + 1) gs

theorem lines_initsCode (scope : Nat → Env → Env) : ∀ (gs : List Field) (i : Nat),
    (initsCode scope i gs).lines = initLines scope i gs
  | [], _ => rfl
  | g :: gs, i => by
    unfold initsCode initLines
    rw [Code.lines_append, lines_initCode, lines_initsCode scope gs (i + 1)]

theorem run_structInit {cfg : Cfg} {E : Nat → Env → Prop} : ∀ {gs : List Field} {fs : List FieldOps},
    ∀ (done vs : List Val) (st : St), DenoteAll cfg E done.length gs fs → st.core.fields = done ++ vs →
    HaveTypes gs vs →
    (∀ j < done.length + gs.length, E j ⟨st.core.params, (done ++ vs).take j⟩) →
    ((initsCode before done.length gs).run cfg st >>= fun st => .ok st.core)
      = (initFields st.core.params fs done.length done vs st.core.node >>= fun n =>
          .ok { st.core with node := n })
  | [], [], done, vs, st, _, hf, ht, _ => by
    cases vs with
    | nil => rfl
    | cons _ _ => exact ht.elim
  | g :: gs, f :: fs, done, [], st, h, hf, ht, _ => ht.elim
  | g :: gs, f :: fs, done, v :: vs, st, h, hf, ht, hE => by
    have hE0 : E done.length (before done.length st.env) := by
      rw [before_env hf]
      simpa using hE done.length (by simp)
    unfold initsCode initFields
    have h1 := run_initCode h.1 (before done.length) done.length (st := st) (v := v) hE0
      (by rw [hf]; exact getElem?_done)
    rw [before_env hf] at h1
    refine (seq_core h1 (K := fun y => initFields st.core.params fs (done.length + 1)
      (done ++ [v]) vs y >>= fun n => .ok { st.core with node := n }) ?_).trans ?_
    · intro y _ st' hst'
      have hf' : st'.core.fields = (done ++ [v]) ++ vs := by rw [hst']; simp [hf]
      have ih := run_structInit (done ++ [v]) vs st' (by simpa using h.2) hf' ht.2
        (by rw [hst']; intro j hj; simpa using hE j (by simp at hj ⊢; omega))
      simp only [List.length_append, List.length_cons, List.length_nil, Nat.zero_add] at ih
      rw [ih, hst']
    · cases f.initContext done.length ⟨st.core.params, done⟩ v st.core.node <;> rfl
  | [], _ :: _, _, _, _, h, _, _, _ => h.elim
  | _ :: _, [], _, _, _, h, _, _, _ => h.elim

theorem run_choiceInit {cfg : Cfg} {E : Nat → Env → Prop} : ∀ {gs : List Field} {fs : List FieldOps},
    ∀ (done vs : List Val) (st : St), DenoteAll cfg E done.length gs fs → st.core.fields = done ++ vs →
    HaveTypes gs vs → (∀ j < done.length + gs.length, E j ⟨st.core.params, []⟩) →
    ((initsCode (fun _ => paramsOnly) done.length gs).run cfg st >>= fun st => .ok st.core)
      = (initChoice st.core.params fs done.length vs st.core.node >>= fun n =>
          .ok { st.core with node := n })
  | [], [], done, vs, st, _, hf, ht, _ => by
    cases vs with
    | nil => rfl
    | cons _ _ => exact ht.elim
  | g :: gs, f :: fs, done, [], st, h, hf, ht, _ => ht.elim
  | g :: gs, f :: fs, done, v :: vs, st, h, hf, ht, hE => by
    unfold initsCode initChoice
    have h1 := run_initCode h.1 paramsOnly done.length (st := st) (v := v) (hE done.length (by simp))
      (by rw [hf]; exact getElem?_done)
    refine (seq_core h1 (K := fun y => initChoice st.core.params fs (done.length + 1)
      vs y >>= fun n => .ok { st.core with node := n }) ?_).trans ?_
    · intro y _ st' hst'
      have hf' : st'.core.fields = (done ++ [v]) ++ vs := by rw [hst']; simp [hf]
      have ih := run_choiceInit (done ++ [v]) vs st' (by simpa using h.2) hf' ht.2
        (by rw [hst']; intro j hj; exact hE j (by simp at hj ⊢; omega))
      simp only [List.length_append, List.length_cons, List.length_nil, Nat.zero_add] at ih
      rw [ih, hst']
    · show (f.initContext done.length ⟨st.core.params, []⟩ v st.core.node >>= _) = _
      cases f.initContext done.length ⟨st.core.params, []⟩ v st.core.node <;> rfl
  | [], _ :: _, _, _, _, h, _, _, _ => h.elim
  | _ :: _, [], _, _, _, h, _, _, _ => h.elim

/-- The tree of `zserio_create_packing_context`. -/
def createCode : List Field → Code
  | [] => .nil
  | g :: gs => Code.ofLines (createContextField g) ++ createCode gs

theorem lines_createCode : ∀ gs : List Field, (createCode gs).lines = gs.flatMap createContextField
  | [] => rfl
  | g :: gs => by
    unfold createCode
    rw [Code.lines_append, Code.lines_ofLines (allStmts_createContextField g), lines_createCode gs]
    rfl

theorem run_createCode {cfg : Cfg} {E : Nat → Env → Prop} : ∀ {i : Nat} {gs : List Field} {fs : List FieldOps},
    DenoteAll cfg E i gs fs → ∀ (st : St),
    ((createCode gs).run cfg st >>= fun st => .ok st.core)
      = .ok { st.core with
          node := .mk (st.core.node.children ++ fs.map FieldOps.createContext) st.core.node.context }
  | _, [], [], _, st => by
    simp only [createCode, Code.run_nil, Res.ok_bind, List.map_nil, List.append_nil]
    obtain ⟨⟨_, _, _, n, _, _, _, _, _⟩, _⟩ := st
    cases n
    rfl
  | _, g :: gs, f :: fs, h, st => by
    unfold createCode
    refine seq_core (R := .ok ()) (upd := fun _ => { st.core with
      node := .mk (st.core.node.children ++ [f.createContext]) st.core.node.context })
      (K := fun _ => _) (run_createContextField h.1 st) ?_
    intro y _ st' hst'
    rw [run_createCode h.2 st', hst']
    simp [Node.children, Node.context]
  | _, [], _ :: _, h, _ => h.elim
  | _, _ :: _, [], h, _ => h.elim

/-! ## `match` -/

/-- The arms of a choice. -/
def choiceArmsCode (gc : Field → Nat → Bool → Code) (packed : Bool) : Nat → List Case → Arms
  | _, [] => .wildcard
  | i, c :: cs =>
    match c.field with
    | none => .arm c.labels .nil (choiceArmsCode gc packed i cs)
    | some f => .arm c.labels (fieldCode gc packed i (f.inScope paramsOnly))
        (choiceArmsCode gc packed (i + 1) cs)

theorem lines_choiceArmsCode {gc : Field → Nat → Bool → Code} {gl : Field → Nat → Bool → List Line}
    (hl : ∀ f i packed, (gc f i packed).lines = gl f i packed) (packed : Bool) :
    ∀ (cs : List Case) (i : Nat),
    (choiceArmsCode gc packed i cs).lines = choiceArms gl packed i cs ++ [.wildcard]
  | [], _ => rfl
  | c :: cs, i => by
    unfold choiceArmsCode choiceArms
    cases c.field with
    | none => simp [Arms.lines, Code.lines, lines_choiceArmsCode hl packed cs i]
    | some f => simp [Arms.lines, lines_fieldCode hl, lines_choiceArmsCode hl packed cs (i + 1)]

theorem run_choiceArms {cfg : Cfg} {E : Nat → Env → Prop} {gc : Field → Nat → Bool → Code} {packed : Bool} {R : FieldDoes}
    (hR : Does cfg gc packed R) (sel : Val) : ∀ {cs : List Case} {ds : List CaseOps},
    ∀ (done vs : List Val) (st : St), DenoteCases cfg E done.length cs ds → st.core.fields = done ++ vs →
    HaveTypes (choiceFields cs) vs →
    (∀ i f, selectCase sel done.length ds = some (i, f) → E i ⟨st.core.params, []⟩) →
    ((choiceArmsCode gc packed done.length cs).run cfg sel st >>= fun st => .ok st.core)
      = match selectCase sel done.length ds with
        | none => .ok st.core
        | some (i, f) => match st.core.fields[i]? with
          | none => .panic
          | some v => R f i ⟨st.core.params, []⟩ v st.core
  | [], [], done, vs, st, _, hf, ht, _ => rfl
  | c :: cs, d :: ds, done, vs, st, h, hf, ht, hE => by
    obtain ⟨hlab, hfield⟩ := h
    unfold choiceArmsCode selectCase
    unfold selectCase at hE
    cases hc : c.field with
    | none =>
      have hd : d.field = none := by
        cases hd : d.field with
        | none => rfl
        | some f => rw [hc, hd] at hfield; exact hfield.elim
      have ht' : HaveTypes (choiceFields cs) vs := by simpa [choiceFields, hc] using ht
      rw [hc, hd] at hfield
      have ih := run_choiceArms hR sel done vs st hfield hf ht'
      simp only [Arms.run, hlab, hd, Option.map_none, Option.isSome_none, Bool.false_eq_true, if_false]
      split
      · simp only [Code.run_nil, Res.ok_bind]
      · rename_i hsel
        exact ih (by simpa [hsel, hd] using hE)
    | some g =>
      obtain ⟨f, hd⟩ : ∃ f, d.field = some f := by
        cases hd : d.field with
        | some f => exact ⟨f, rfl⟩
        | none => rw [hc, hd] at hfield; exact hfield.elim
      rw [hc, hd] at hfield
      have ht' : HaveTypes (g :: choiceFields cs) vs := by simpa [choiceFields, hc] using ht
      cases vs with
      | nil => exact ht'.elim
      | cons v vs =>
        have hv : st.core.fields[done.length]? = some v := by rw [hf]; exact getElem?_done
        have ih := run_choiceArms hR sel (done ++ [v]) vs st (by simpa using hfield.2) (by simp [hf]) ht'.2
        simp only [List.length_append, List.length_cons, List.length_nil, Nat.zero_add] at ih
        simp only [Arms.run, hlab, hd, Option.map_some, Option.isSome_some, if_true]
        split
        · rename_i hsel
          simp only [hv]
          exact run_fieldCode hR hfield.1 (stable_paramsOnly done.length)
            (hE done.length f (by simp [hsel, hd])) hv ht'.1
        · rename_i hsel
          exact ih (by simpa [hsel, hd] using hE)
  | [], _ :: _, _, _, _, h, _, _, _ => h.elim
  | _ :: _, [], _, _, _, h, _, _, _ => h.elim

/-- The arms of a union. -/
def unionArmsCode (gc : Field → Nat → Bool → Code) (packed : Bool) : Nat → List Field → Arms
  | _, [] => .nil
  | i, g :: gs => .arm [.nat i] (fieldCode gc packed i (g.inScope paramsOnly))
      (unionArmsCode gc packed (i + 1) gs)

theorem lines_unionArmsCode {gc : Field → Nat → Bool → Code} {gl : Field → Nat → Bool → List Line}
    (hl : ∀ f i packed, (gc f i packed).lines = gl f i packed) (packed : Bool) :
    ∀ (gs : List Field) (i : Nat), (unionArmsCode gc packed i gs).lines = unionArms gl packed i gs
  | [], _ => rfl
  | g :: gs, i => by
    unfold unionArmsCode unionArms
    simp [Arms.lines, lines_fieldCode hl, lines_unionArmsCode hl packed gs (i + 1)]

theorem run_unionArms {cfg : Cfg} {E : Nat → Env → Prop} {gc : Field → Nat → Bool → Code} {packed : Bool} {R : FieldDoes}
    (hR : Does cfg gc packed R) (sel : Nat) : ∀ {gs : List Field} {fs : List FieldOps},
    ∀ (done vs : List Val) (st : St), DenoteAll cfg E done.length gs fs → st.core.fields = done ++ vs →
    HaveTypes gs vs → (sel < done.length + gs.length → E sel ⟨st.core.params, []⟩) → done.length ≤ sel →
    ((unionArmsCode gc packed done.length gs).run cfg (.nat sel) st >>= fun st => .ok st.core)
      = match fs[sel - done.length]?, st.core.fields[sel]? with
        | some f, some v => R f sel ⟨st.core.params, []⟩ v st.core
        | _, _ => .panic
  | [], [], done, vs, st, _, hf, ht, _, _ => rfl
  | g :: gs, f :: fs, done, [], st, h, hf, ht, _, _ => ht.elim
  | g :: gs, f :: fs, done, v :: vs, st, h, hf, ht, hE, hle => by
    unfold unionArmsCode
    have hv : st.core.fields[done.length]? = some v := by rw [hf]; exact getElem?_done
    by_cases hsel : sel = done.length
    · subst hsel
      simp only [Arms.run, List.mem_singleton, if_true, Nat.sub_self, List.getElem?_cons_zero, hv]
      exact run_fieldCode hR h.1 (stable_paramsOnly done.length) (hE (by simp)) hv ht.1
    · have hne : ¬ (Val.nat sel ∈ [Val.nat done.length]) := by simpa using hsel
      have ih := run_unionArms hR sel (done ++ [v]) vs st (by simpa using h.2) (by simp [hf]) ht.2
        (fun hlt => hE (by simp at hlt ⊢; omega))
        (by simp only [List.length_append, List.length_cons, List.length_nil]; omega)
      simp only [List.length_append, List.length_cons, List.length_nil, Nat.zero_add] at ih
      simp only [Arms.run, hne, if_false]
      rw [ih, show sel - done.length = (sel - (done.length + 1)) + 1 by omega,
        List.getElem?_cons_succ]
  | [], _ :: _, _, _, _, h, _, _, _, _ => h.elim
  | _ :: _, [], _, _, _, h, _, _, _, _ => h.elim

/-- A tree of one `match`. -/
def Code.sel (s : Scrutinee) (arms : Arms) : Code := .branch s arms .nil

theorem Code.lines_sel (s : Scrutinee) (arms : Arms) :
    (Code.sel s arms).lines = .matchLine s :: (arms.lines ++ [.close]) := by
  simp [Code.sel, Code.lines]

theorem Code.run_sel (cfg : Cfg) (s : Scrutinee) (arms : Arms) (st : St) :
    (Code.sel s arms).run cfg st = arms.run cfg (s.value st) st := by
  simp only [Code.sel, Code.run]
  cases arms.run cfg (s.value st) st <;> rfl

end Emit

end Zs
