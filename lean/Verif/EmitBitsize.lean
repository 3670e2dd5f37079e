import Verif.EmitDecode

/-!
# The lines emitted for the size and for the packing context of a field
-/

namespace Zs

namespace Emit

open Spec

/-! ## Sizes -/

/-- The effect of a line that adds to `end_position`. -/
def added (st : St) (x : Nat × Node) : Res St :=
  .ok { st with core := { st.core with pos := x.1, node := x.2 } }

theorem inScope_rust (scope : Env → Env) (ty : RefTy) : (ty.inScope scope).rust = ty.rust := by
  cases ty <;> rfl

theorem size_step (st : St) (r : Res Nat) :
    (r >>= fun n => Res.ok (st.add n)) = ((r >>= fun s => Res.ok (st.core.pos + s, st.core.node))
      >>= added st) := by
  cases r <;> rfl

/-- `bitsize_type_reference` emits one statement, which adds the size of the value. -/
theorem bitsizeType_exec {cfg : Cfg} {E : Env → Prop} {ty : RefTy} {ops : TypeOps}
    (h : IsType cfg E ty ops)
    (scope : Env → Env) (p : Place) (i : Nat) (packed : Bool) (info : FieldInfo)
    (hp : packed = true → ops.isPackable = true) :
    ∃ s, bitsizeType (ty.inScope scope) p i packed = [.stmt s] ∧ ∀ st v, E (scope st.env) → st.get p = .ok v →
      HasRust ty.rust v →
      s.exec cfg st = (FieldOps.bitsizeType ⟨info, ops⟩ packed i (scope st.env) v st.core.node
        st.core.pos >>= added st) := by
  have ht := initTrait_eval h scope
  cases h with
  | compound c n =>
    cases packed with
    | true =>
      refine ⟨_, rfl, fun st v hE hv _ => ?_⟩
      simp only [Stmt.exec, hv, FieldOps.bitsizeType, Codec.ops, Res.ok_bind, if_true]
      cases Node.onChild st.core.node i (fun n => (c.bitsizePacked v n st.core.pos).unwrap) <;> rfl
    | false =>
      refine ⟨_, rfl, fun st v hE hv _ => ?_⟩
      simp only [Stmt.exec, hv, FieldOps.bitsizeType, Codec.ops, Res.ok_bind, if_false,
        Bool.false_eq_true]
      cases (c.bitsize v st.core.pos).unwrap <;> rfl
  | @scalar name bits length s h =>
    cases packed with
    | true =>
      have hpk : s.isPackable = true := hp rfl
      by_cases hb : bits = 0
      · have key : bitsizeType (RefTy.inScope scope (.builtin name bits length)) p i true
            = [.stmt (.addDelta i (initTrait (RefTy.inScope scope (.builtin name bits length)))
                (RefTy.inScope scope (.builtin name bits length)).rust p)] := by
          cases h <;> first | rfl | (exact absurd hpk (by decide)) | omega
        refine ⟨_, key, fun st v hE hv _ => ?_⟩
        have hfb : s.fixedBits = none := by cases h <;> first | rfl | omega
        simp only [Stmt.exec, hv, ht _ hE, Res.ok_bind, FieldOps.bitsizeType, if_true, onDelta_eq]
        have hs : ∀ n pos, s.bitsizePacked cfg (scope st.env) v n pos
            = ((s.elem cfg (scope st.env)).packable cfg.md).bitsizeOfPacked n pos v := by
          intro n pos
          cases h <;> first | rfl | omega
        simp only [Scalar.ops, hfb, hs, Elem.packable]
        cases Node.onChild st.core.node i
          (fun c => c.onContext fun d => d.bitsizeOf (s.elem cfg (scope st.env)) v) <;> rfl
      · have hs : s = .bits bits ∨ s = .ints bits := by
          cases h <;> first | exact Or.inl rfl | exact Or.inr rfl | exact absurd rfl hb
        have key : bitsizeType (RefTy.inScope scope (.builtin name bits length)) p i true
            = [.stmt (.addLit bits)] := by
          cases h <;> first | exact absurd rfl hb | simp [bitsizeType, RefTy.inScope, hb]
        refine ⟨_, key, fun st v hE hv _ => ?_⟩
        simp only [Stmt.exec, FieldOps.bitsizeType, if_true]
        rcases hs with rfl | rfl <;> rfl
    | false =>
      cases h with
      | bits _ h =>
        have hn : bits ≠ 0 := by omega
        refine ⟨.addLit bits, by simp [bitsizeType, RefTy.inScope, hn], fun st v hE hv hr => ?_⟩
        simp only [Stmt.exec, FieldOps.bitsizeType, Scalar.ops, Scalar.bitsize, if_false,
          Bool.false_eq_true]
        cases v <;> first | rfl | exact hr.elim
      | ints _ h =>
        have hn : bits ≠ 0 := by omega
        refine ⟨.addLit bits, by simp [bitsizeType, RefTy.inScope, hn], fun st v hE hv hr => ?_⟩
        simp only [Stmt.exec, FieldOps.bitsizeType, Scalar.ops, Scalar.bitsize, if_false,
          Bool.false_eq_true]
        cases v <;> first | rfl | exact hr.elim
      | _ =>
        refine ⟨_, rfl, fun st v hE hv hr => ?_⟩
        simp only [Stmt.exec, hv, Res.ok_bind, FieldOps.bitsizeType, Scalar.ops, Scalar.bitsize,
          bitsizeByName, if_false, Bool.false_eq_true]
        cases v <;> first
          | exact hr.elim
          | rfl
          | exact size_step st _

theorem bitsizeType_single (ty : RefTy) (p : Place) (i : Nat) (packed : Bool) :
    ∃ s, bitsizeType ty p i packed = [.stmt s] := by
  unfold bitsizeType bitsizeNamed
  repeat' split
  all_goals exact ⟨_, rfl⟩

/-- The tree of the size of a value. -/
def sizeCode (f : Field) (i : Nat) (packed : Bool) (p : Place) : Code :=
  if f.array.isSome then Code.one (.addArray p (decide (f.offset = .indexed)))
  else Code.ofLines (bitsizeType f.ty p i (packed && f.isPackable))

theorem lines_sizeCode (f : Field) (i : Nat) (packed : Bool) (p : Place) :
    (sizeCode f i packed p).lines
      = if f.array.isSome then [.stmt (.addArray p (decide (f.offset = .indexed)))]
        else bitsizeType f.ty p i (packed && f.isPackable) := by
  unfold sizeCode
  split
  · rfl
  · obtain ⟨s, hs⟩ := bitsizeType_single f.ty p i (packed && f.isPackable)
    rw [hs]
    rfl

theorem run_sizeCode {cfg : Cfg} {E : Env → Prop} {g : Field} {f : FieldOps} (h : Denotes cfg E g f)
    (scope : Env → Env) {p : Place} (i : Nat) (packed : Bool) {st : St} {x : Val}
    (hE : Inside E f (scope st.env)) (hx : st.get p = .ok x) (ha : ArrayReady f packed scope st)
    (ht : HasContent g x) :
    (sizeCode (g.inScope scope) i packed p).run cfg st
      = (f.bitsizeContent packed i (scope st.env) x st.core.node st.core.pos >>= added st) := by
  have harr := h.array
  have hidx := indexed_eq h scope
  unfold sizeCode FieldOps.bitsizeContent
  unfold HasContent at ht
  cases hga : g.array with
  | none =>
    have hfa : f.info.array = none := by
      cases hfa : f.info.array with
      | none => rfl
      | some a => rw [hga, hfa] at harr; exact harr.elim
    have hia : (g.inScope scope).array = none := by simp [Field.inScope, hga]
    rw [hga] at ht
    simp only [Option.isSome_none, Bool.false_eq_true, if_false] at ht
    have hp' : (packed && f.isPackable) = true → f.ty.isPackable = true := by
      intro hb
      simp only [Bool.and_eq_true] at hb
      have := hb.2
      unfold FieldOps.isPackable at this
      rw [hfa] at this
      split at this
      · exact absurd this (by decide)
      · simpa using this
    obtain ⟨s, hs, hrun⟩ := bitsizeType_exec h.ty scope p i (packed && f.isPackable) f.info hp'
    simp only [hia, hfa, Option.isSome_none, Bool.false_eq_true, if_false, isPackable_eq h]
    rw [show (g.inScope scope).ty = g.ty.inScope scope from rfl, hs, Code.run_ofLines_one]
    exact hrun st x (inFront_of hE) hx ht
  | some a =>
    obtain ⟨b, hfa⟩ : ∃ b, f.info.array = some b := by
      cases hfa : f.info.array with
      | some a => exact ⟨a, rfl⟩
      | none => rw [hga, hfa] at harr; exact harr.elim
    have hsome : (g.inScope scope).array.isSome = true := by simp [Field.inScope, hga]
    have hthe : st.theArray = .ok (f.arrayDef packed (scope st.env) b) := by
      unfold St.theArray
      rw [ha b hfa]
    rw [if_pos hsome, Code.run_one, hidx]
    rw [hga] at ht
    obtain ⟨xs, rfl⟩ := ht
    simp only [Stmt.exec, hx, Res.ok_bind, vecOf, hthe, hfa]
    cases (f.arrayDef packed (scope st.env) b).zserioBitsize xs f.indexed st.core.pos <;> rfl

/-- The alignment lines of the size. -/
def alignCodeS (f : Field) : Code :=
  (if f.alignment ≠ 0 then Code.one (.addAlign f.alignment) else .nil)
  ++ (if f.offset = .plain then Code.one (.addAlign 8) else .nil)

theorem lines_alignCodeS (f : Field) : (alignCodeS f).lines
    = (if f.alignment ≠ 0 then [.stmt (.addAlign f.alignment)] else [])
      ++ (if f.offset = .plain then [.stmt (.addAlign 8)] else []) := by
  unfold alignCodeS
  rw [Code.lines_append]
  split <;> split <;> rfl

theorem run_alignCodeS {cfg : Cfg} {E : Env → Prop} {g : Field} {f : FieldOps} (h : Denotes cfg E g f)
    (scope : Env → Env) (st : St) :
    (alignCodeS (g.inScope scope)).run cfg st
      = (f.alignBitsize st.core.pos >>= fun n => .ok { st with core := { st.core with pos := n } }) := by
  unfold alignCodeS FieldOps.alignBitsize
  rw [Code.run_append]
  have h1 : (g.inScope scope).alignment = f.info.alignment := h.alignment
  have h2 : (g.inScope scope).offset = f.info.offset := h.offset
  rw [h1, h2]
  have h3 : ∀ st : St, (if f.info.offset = .plain then Code.one (.addAlign 8) else .nil).run cfg st
      = ((if f.info.offset = .plain then do
          let n ← Zs.alignBitsize st.core.pos 8
          pure (st.core.pos + n) else pure st.core.pos) >>= fun n =>
        .ok { st with core := { st.core with pos := n } }) := by
    intro st
    split
    · rw [Code.run_one]
      simp only [Stmt.exec]
      cases Zs.alignBitsize st.core.pos 8 <;> rfl
    · rw [Code.run_nil]; rfl
  by_cases ha : f.info.alignment = 0
  · simp only [ha, ne_eq, not_true_eq_false, if_false, Code.run_nil, Res.ok_bind, if_true, Res.pure_eq]
    exact h3 st
  · simp only [ha, ne_eq, not_false_eq_true, if_true, if_false, Code.run_one, Stmt.exec]
    cases Zs.alignBitsize st.core.pos f.info.alignment with
    | ok w =>
      simp only [Res.ok_bind, Res.pure_eq]
      rw [h3]
      rfl
    | err e => rfl
    | panic => rfl

/-- The tree of `bitsize_field`. -/
def bitsizeCode (f : Field) (i : Nat) (packed : Bool) : Code :=
  clauseCode f (alignCodeS f ++
    if f.optional then
      Code.one (.addLit 1) ++ Code.blk (.ifLet f.requiresBorrowing (.self i)) (sizeCode f i packed .x)
    else sizeCode f i packed (.self i))

theorem lines_bitsizeCode (f : Field) (i : Nat) (packed : Bool) :
    (bitsizeCode f i packed).lines = bitsizeField f i packed := by
  unfold bitsizeCode bitsizeField clauseCode
  cases hc : f.clause <;> cases ho : f.optional <;>
    simp only [Code.lines_blk, Code.lines_append, lines_alignCodeS, lines_sizeCode,
      Bool.false_eq_true, if_false, if_true, Code.lines_one, Option.isSome_none,
      Option.isSome_some] <;>
    simp [List.append_assoc]

theorem run_bitsizeCode {cfg : Cfg} {E : Env → Prop} {g : Field} {f : FieldOps} (h : Denotes cfg E g f)
    (scope : Env → Env) (i : Nat) (packed : Bool) {st : St} {v : Val}
    (hE : E (scope st.env)) (hv : st.core.fields[i]? = some v) (ha : ArrayReady f packed scope st) (ht : HasType g v) :
    ((bitsizeCode (g.inScope scope) i packed).run cfg st >>= fun st => .ok st.core)
      = (f.bitsize packed i (scope st.env) v st.core.node st.core.pos >>= fun y =>
          .ok { st.core with pos := y.1, node := y.2 }) := by
  unfold bitsizeCode FieldOps.bitsize
  unfold HasType at ht
  rw [run_clauseCode h _ _ _ hE]
  split
  · rename_i hpres
    have hin := inside_of hE hpres
    rw [Code.run_append, run_alignCodeS h]
    cases f.alignBitsize st.core.pos with
    | err e => rfl
    | panic => rfl
    | ok n =>
      simp only [Res.ok_bind]
      have hget : St.get { st with core := { st.core with pos := n } } (.self i) = .ok v := by
        show (match st.core.fields[i]? with | some v => Res.ok v | none => .panic) = _
        rw [hv]
      have ho : (g.inScope scope).optional = f.info.optional := h.optional
      have ho' : g.optional = f.info.optional := h.optional
      unfold FieldOps.bitsizeOptional
      rw [ho]
      rw [ho'] at ht
      cases hopt : f.info.optional with
      | false =>
        rw [hopt] at ht
        simp only [Bool.false_eq_true, if_false] at ht ⊢
        have := run_sizeCode h scope (p := .self i) i packed
          (st := { st with core := { st.core with pos := n } }) hin hget ha ht
        rw [this]
        show ((f.bitsizeContent packed i (scope st.env) v st.core.node n >>= _) >>= _) = _
        cases f.bitsizeContent packed i (scope st.env) v st.core.node n <;> rfl
      | true =>
        rw [hopt] at ht
        simp only [if_true] at ht ⊢
        rw [Code.run_append, Code.run_one]
        have hget1 : St.get (St.add { st with core := { st.core with pos := n } } 1) (.self i)
            = .ok v := hget
        simp only [Stmt.exec, Res.pure_eq, Res.ok_bind, Code.run_blk, Head.exec, hget1]
        rcases ht with rfl | ⟨x, rfl, hc⟩
        · rfl
        · simp only []
          have := run_sizeCode h scope (p := .x) i packed (x := x)
            (st := ⟨{ st.core with pos := n + 1 }, { st.loc with x := x }⟩) hin rfl ha hc
          refine Eq.trans (congrArg (fun y => y >>= fun st : St => Res.ok st.core) this) ?_
          show ((f.bitsizeContent packed i (scope st.env) x st.core.node (n + 1) >>= _) >>= _) = _
          cases f.bitsizeContent packed i (scope st.env) x st.core.node (n + 1) <;> rfl
  · rfl

end Emit

end Zs
