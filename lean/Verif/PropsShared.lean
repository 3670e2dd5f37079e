import Verif.SharedLemmas
import Verif.PropsTyping
import Verif.PropsSchema

/-!
# C66: every instance of a template is translated with its own types

The instances of a template are numbered; `scopes i` is the scope of the instance `i`, `order` the order
in which the compiler comes to them, which is that of a hash map.
-/

namespace Zs

open Spec

variable {fo : FloatOps} {md : Mode}

namespace Spec

/-- What the text of an expression should be in an instance: its translation with the types of the
instance. -/
def OwnText (md : Mode) (scopes : Nat → TScope) (e : Expr fo.F) (i : Nat) (t : List (Tok fo.F)) : Prop :=
  e.text md (scopes i).erase (textInfo md (scopes i)) = some t

/-- The instances `order` are translated as they should be: they are accepted exactly if the expression
is meaningful in each of them, and in each of them it gets its own translation. -/
def TranslatedAlike (md : Mode) (scopes : Nat → TScope) (e : Expr fo.F) (order : List Nat) : Prop :=
  ((∃ c, evaluateInstances md scopes e order none = .ok c) ↔ ∀ i ∈ order, Accepted md (scopes i) e) ∧
  ∀ c, evaluateInstances md scopes e order none = .ok c → ∀ i ∈ order, ∀ t,
    sharedText md scopes e c = some t ↔ OwnText md scopes e i t

end Spec

/-- C66: what the compiler does: it accepts an expression of a template exactly if the expression is
meaningful in the instance that comes first, and emits the translation with the types of that instance
into all of them. -/
theorem C66_first_iff (scopes : Nat → TScope) (e : Expr fo.F) (i : Nat) (rest : List Nat) :
    ((∃ c, evaluateInstances md scopes e (i :: rest) none = .ok c) ↔ Accepted md (scopes i) e) ∧
    ∀ c, evaluateInstances md scopes e (i :: rest) none = .ok c →
      ∀ t, sharedText md scopes e c = some t ↔ OwnText md scopes e i t := by
  have key : ∀ c, evaluateInstances md scopes e (i :: rest) none = .ok c ↔
      Accepted md (scopes i) e ∧ c = some i := by
    intro c
    simp only [evaluateInstances]
    constructor
    · intro h
      cases h1 : evaluateIn md scopes e i none with
      | ok d =>
        obtain ⟨⟨⟨⟨x, k⟩, hr⟩, hn⟩, rfl⟩ := (evaluateIn_none md scopes e i d).mp h1
        rw [h1] at h
        simp only [bind, Res.bind, evaluateInstances_some] at h
        exact ⟨⟨⟨x, k, hr⟩, hn⟩, by simpa using h.symm⟩
      | err x => rw [h1] at h; simp [bind, Res.bind] at h
      | panic => rw [h1] at h; simp [bind, Res.bind] at h
    · rintro ⟨⟨⟨x, k, hr⟩, hn⟩, rfl⟩
      rw [(evaluateIn_none md scopes e i (some i)).mpr ⟨⟨⟨_, hr⟩, hn⟩, rfl⟩]
      simp only [bind, Res.bind, evaluateInstances_some]
  refine ⟨⟨?_, ?_⟩, ?_⟩
  · rintro ⟨c, hc⟩; exact ((key c).mp hc).1
  · intro h; exact ⟨_, (key _).mpr ⟨h, rfl⟩⟩
  · intro c hc t
    obtain ⟨_, rfl⟩ := (key c).mp hc
    rfl

/-- C66 holds if the instances agree about the names in the expression (it does not touch what has the
type of a template parameter), in whatever order they come.  Missing: the other expressions
(`C66_types_violated`). -/
theorem C66_agree_partial (scopes : Nat → TScope) (e : Expr fo.F) (order : List Nat)
    (h : ∀ i ∈ order, ∀ j ∈ order, AgreeOn e (scopes i) (scopes j)) :
    TranslatedAlike md scopes e order := by
  cases order with
  | nil =>
    exact ⟨⟨fun _ => by simp, fun _ => ⟨_, rfl⟩⟩, fun _ _ i hi => absurd hi (by simp)⟩
  | cons i rest =>
    obtain ⟨h1, h2⟩ := C66_first_iff (md := md) scopes e i rest
    have hi : i ∈ i :: rest := by simp
    refine ⟨h1.trans ⟨?_, fun h => h i hi⟩, ?_⟩
    · rintro ⟨⟨x, k, hr⟩, n, hn⟩ j hj
      exact ⟨⟨x, k, by rw [← evaluate_agree (h i hi j hj)]; exact hr⟩, n,
        by rw [← native_agree (h i hi j hj)]; exact hn⟩
    · intro c hc j hj t
      rw [h2 c hc t]
      unfold OwnText
      rw [text_agree (h i hi j hj)]

/-- C66 holds for a template with one instance. -/
theorem C66_single (scopes : Nat → TScope) (e : Expr fo.F) (i : Nat) :
    TranslatedAlike md scopes e [i] :=
  C66_agree_partial scopes e [i] (by
    intro a ha b hb
    simp only [List.mem_singleton] at ha hb
    subst ha hb
    exact ⟨fun _ _ => rfl, rfl, rfl⟩)

/-! ## Violations -/

namespace Demo

/-- The scopes of the instances `S<uint32>`, `S<uint8>` and `S<E>` of
`struct S<T> { T x; uint32 y; bool b; }`. -/
def instanceScope (i : Nat) : TScope where
  ident := fun n =>
    if n = "x" then some ⟨if i = 0 then .num .uint32 else if i = 1 then .num .uint8 else
      .enum "E" { name := .uint8 }, .plain⟩
    else if n = "y" then some ⟨.num .uint32, .plain⟩
    else if n = "b" then some ⟨.bool, .plain⟩
    else none
  member := fun _ _ => none
  hasItem := fun _ _ => false
  index := false

/-- `x + y` -/
def sumXY : Expr tenths.F := .arith .add (.ident "x") (.ident "y")

end Demo

-- `y + 1 > 3 && b` mentions nothing of the type `T`: all instances get their own translation.
example : TranslatedAlike .debug Demo.instanceScope
    (.logic .and (.cmp .gt (.arith .add (.ident "y") (.intLit 1)) (.intLit 3)) (.ident "b") : Expr tenths.F)
    [2, 0, 1] :=
  C66_agree_partial _ _ _ fun i _ j _ => ⟨by
    intro n hn
    simp only [names, List.append_nil, List.cons_append, List.nil_append, List.mem_cons, List.not_mem_nil,
      or_false] at hn
    rcases hn with rfl | rfl <;> simp [Demo.instanceScope], rfl, rfl⟩

-- `x + y` is accepted when `S<uint32>` comes first.
example : Accepted .debug (Demo.instanceScope 0) Demo.sumXY := ⟨⟨_, _, rfl⟩, _, rfl⟩

/-- C66 is violated by `x + y` in `struct S<T> { T x; uint32 y; }` with the instances `S<uint32>` and
`S<uint8>`: if `S<uint32>` comes first, the text in `S<uint8>` lacks the cast, and no Rust type fits the
code; if `S<uint8>` comes first, the code of both has the type `u32`.  So whether the generated code
compiles depends on the order of a hash map. -/
theorem C66_types_violated :
    ¬ TranslatedAlike .debug Demo.instanceScope Demo.sumXY [0, 1] ∧
    (∃ c t, evaluateInstances .debug Demo.instanceScope Demo.sumXY [0, 1] none = .ok c ∧
      sharedText .debug Demo.instanceScope Demo.sumXY c = some t ∧
      ReadsAs t (code .debug (Demo.instanceScope 0) Demo.sumXY) ∧
      ∀ ty, ¬ Typed (rscope (Demo.instanceScope 1)) (code .debug (Demo.instanceScope 0) Demo.sumXY) ty) ∧
    (∃ c t, evaluateInstances .debug Demo.instanceScope Demo.sumXY [1, 0] none = .ok c ∧
      sharedText .debug Demo.instanceScope Demo.sumXY c = some t ∧
      ReadsAs t (code .debug (Demo.instanceScope 1) Demo.sumXY) ∧
      ∀ i, i = 0 ∨ i = 1 →
        Typed (rscope (Demo.instanceScope i)) (code .debug (Demo.instanceScope 1) Demo.sumXY)
          (.int ⟨false, 32⟩)) := by
  refine ⟨?_, ⟨_, _, rfl, rfl, ⟨10, fun m hm => ?_⟩, ?_⟩, ⟨_, _, rfl, rfl, ⟨20, fun m hm => ?_⟩, ?_⟩⟩
  · intro h
    have := (h.2 _ rfl 1 (by simp) [.atom (.name "x"), .op (.arith .add), .atom (.name "y")]).mp rfl
    exact absurd this (by unfold OwnText; rw [show Demo.sumXY.text .debug (Demo.instanceScope 1).erase
      (textInfo .debug (Demo.instanceScope 1)) = some [.lpar, .lpar, .atom (.name "x"), .rpar, .as "u32",
        .rpar, .op (.arith .add), .atom (.name "y")] from rfl]; simp)
  · obtain ⟨m, rfl⟩ := Nat.exists_eq_add_of_le hm
    rw [Nat.add_comm]; rfl
  · intro ty h
    have h' : (rscope (F := tenths.F) (Demo.instanceScope 1)).name "x" = some ty ∧
        (rscope (F := tenths.F) (Demo.instanceScope 1)).name "y" = some ty ∧ ty.Number := h
    have hx : some (RTy.int ⟨false, 8⟩) = some ty := h'.1
    have hy : some (RTy.int ⟨false, 32⟩) = some ty := h'.2.1
    exact absurd (hx.trans hy.symm) (by decide)
  · obtain ⟨m, rfl⟩ := Nat.exists_eq_add_of_le hm
    rw [Nat.add_comm]; rfl
  · intro i hi
    refine ⟨⟨rfl, ?_⟩, ?_, trivial⟩
    · rcases hi with rfl | rfl
      · exact ⟨.int ⟨false, 32⟩, rfl, .inr (.inl ⟨trivial, trivial⟩)⟩
      · exact ⟨.int ⟨false, 8⟩, rfl, .inr (.inl ⟨trivial, trivial⟩)⟩
    · rcases hi with rfl | rfl <;> rfl

/-- C66 is violated by expressions that are not meaningful in an instance: `x + y` in
`struct S<T> { T x; uint32 y; }` with the instances `S<uint8>` and `S<E>` for an enum `E` is accepted if
`S<uint8>` comes first; if `S<E>` comes first, the compiler panics. -/
theorem C66_accepted_violated :
    ¬ Accepted .debug (Demo.instanceScope 2) Demo.sumXY ∧
    (∃ c, evaluateInstances .debug Demo.instanceScope Demo.sumXY [1, 2] none = .ok c) ∧
    evaluateInstances .debug Demo.instanceScope Demo.sumXY [2, 1] none = .panic := by
  refine ⟨?_, ⟨_, rfl⟩, rfl⟩
  rintro ⟨⟨c, k, h⟩, _⟩
  cases h

/-! ## Offsets -/

namespace Spec

/-- The offset of a field is given by the field `name`, or by its elements: `name:`, `name[@index]:`. -/
def NamesOffset (e : Expr fo.F) (name : String) : Prop := e = .ident name ∨ ∃ i, e = .elem (.ident name) i

end Spec

/-- C66 for offsets: the compiler marks the field that an offset names in the instance that comes first,
and in no other. -/
theorem C66_offset_iff (scopes : Nat → TScope) (fields : List String) (e : Expr fo.F) (name : String)
    (hname : NamesOffset e name) (i : Nat) (rest : List Nat) :
    ((∃ r, evaluateOffsets md scopes fields e (i :: rest) (none, []) = .ok r) ↔
      Accepted md (scopes i) e ∧ name ∈ fields) ∧
    ∀ c marks, evaluateOffsets md scopes fields e (i :: rest) (none, []) = .ok (c, marks) →
      ∀ j n, (j, n) ∈ marks ↔ j = i ∧ n = name := by
  have hname : offsetName e = some name := by
    rcases hname with rfl | ⟨i, rfl⟩ <;> rfl
  have key : ∀ r, evaluateOffsets md scopes fields e (i :: rest) (none, []) = .ok r →
      (Accepted md (scopes i) e ∧ name ∈ fields) ∧
        ∀ j n, (j, n) ∈ r.2 ↔ j = i ∧ n = name := by
    intro r h
    simp only [evaluateOffsets, evaluateOffset] at h
    cases h1 : evaluateIn md scopes e i none with
    | ok d =>
      obtain ⟨⟨⟨⟨x, k⟩, hr⟩, hn⟩, rfl⟩ := (evaluateIn_none md scopes e i d).mp h1
      rw [h1] at h
      by_cases hf : name ∈ fields
      · obtain ⟨more, hm, hall⟩ := evaluateOffsets_some md scopes fields e name hname hf rest i
          [(i, name)]
        simp only [bind, Res.bind, hname, if_pos hf, hm] at h
        cases h
        refine ⟨⟨⟨⟨x, k, hr⟩, hn⟩, hf⟩, fun j n => ?_⟩
        simp only [List.mem_append, List.mem_singleton, Prod.mk.injEq]
        constructor
        · rintro (hm' | hm')
          · simpa using hall _ hm'
          · exact hm'
        · exact .inr
      · simp [bind, Res.bind, hname, if_neg hf] at h
    | err x => rw [h1] at h; simp [bind, Res.bind] at h
    | panic => rw [h1] at h; simp [bind, Res.bind] at h
  refine ⟨⟨?_, ?_⟩, ?_⟩
  · rintro ⟨r, hr⟩; exact (key r hr).1
  · rintro ⟨⟨⟨x, k, hr⟩, hn⟩, hf⟩
    obtain ⟨more, hm, _⟩ := evaluateOffsets_some md scopes fields e name hname hf rest i [(i, name)]
    refine ⟨(some i, more ++ [(i, name)]), ?_⟩
    have h1 := (evaluateIn_none md scopes e i (some i)).mpr ⟨⟨⟨_, hr⟩, hn⟩, rfl⟩
    simp only [evaluateOffsets, evaluateOffset, h1, bind, Res.bind, hname, if_pos hf, hm]
  · intro c marks h j n
    exact (key _ h).2 j n

-- `y:` in front of a field of `S<uint8>`, `S<uint32>`: only `S<uint8>` gets an offset field.
example : evaluateOffsets .debug Demo.instanceScope ["x", "y"] (.ident "y" : Expr tenths.F) [1, 0]
    (none, []) = .ok (some 1, [(1, "y"), (1, "y")]) := rfl

namespace Demo

/-- `struct B { uint32 end; end: uint8 x; }`; `marked`: `end` is marked as the field of an offset. -/
def offsetBlock (marked : Bool) : Ty :=
  .struct [] (.cons { isOffsetField := marked } (.scalar (.uint 32))
    (.cons { offset := .plain } (.scalar (.uint 8)) .nil))

/-- Two blocks, with their offsets. -/
def offsetBlocks : Val := .obj [] [.list [.obj [] [.nat 7, .nat 1], .obj [] [.nat 13, .nat 2]]]

end Demo

/-- C66 is violated by offsets in any second instance of a template: its field is not marked.  In packed
arrays a field that is not marked is written in another format, and what is written in one format cannot
be read in the other: with
`struct S<T> { uint32 end; end: T x; }` the data written by one build of a program can be unreadable to
another build of the same program, in which the hash map has another order. -/
theorem C66_offset_violated :
    (∀ (md : Mode) (scopes : Nat → TScope) (fields : List String) (name : String) (i j : Nat)
      (rest : List Nat) (c : Evaluated) (marks : List (Nat × String)), i ≠ j → j ∈ rest →
      evaluateOffsets md scopes fields (.ident name : Expr fo.F) (i :: rest) (none, []) = .ok (c, marks) →
      (i, name) ∈ marks ∧ (j, name) ∉ marks) ∧
    (∀ marked, (Demo.packedOf (Demo.offsetBlock marked)).Valid Demo.cfg ⟨[], []⟩ Demo.offsetBlocks) ∧
    toBytes (fun w => ((Demo.packedOf (Demo.offsetBlock true)).ops Demo.cfg).write ⟨[], []⟩
      Demo.offsetBlocks w) = .ok [2, 0, 0, 0, 7, 0, 128, 0, 0, 6, 128, 2] ∧
    fromBytes (fun r => ((Demo.packedOf (Demo.offsetBlock false)).ops Demo.cfg).read ⟨[], []⟩
      (Demo.packedOf (Demo.offsetBlock false)).default r) [2, 0, 0, 0, 7, 0, 128, 0, 0, 6, 128, 2] =
      .ok (.obj [] [.list [.obj [] [.nat 14, .nat 0], .obj [] [.nat 212993, .nat 0]]]) ∧
    toBytes (fun w => ((Demo.packedOf (Demo.offsetBlock false)).ops Demo.cfg).write ⟨[], []⟩
      Demo.offsetBlocks w) = .ok [2, 134, 0, 0, 0, 14, 0, 176, 2] ∧
    fromBytes (fun r => ((Demo.packedOf (Demo.offsetBlock true)).ops Demo.cfg).read ⟨[], []⟩
      (Demo.packedOf (Demo.offsetBlock true)).default r) [2, 134, 0, 0, 0, 14, 0, 176, 2] = .err .eof := by
  refine ⟨?_, ?_, by decide +kernel, by decide +kernel, by decide +kernel, by decide +kernel⟩
  · intro md scopes fields name i j rest c marks hij _ h
    have := (C66_offset_iff (md := md) scopes fields (.ident name : Expr fo.F) name (.inl rfl) i rest).2 c marks h
    exact ⟨(this i name).mpr ⟨rfl, rfl⟩, fun hm => hij ((this j name).mp hm).1.symm⟩
  · intro marked
    simp [Demo.packedOf, Demo.offsetBlock, Demo.offsetBlocks, FieldInfo.FieldValid,
      FieldInfo.contentValid_list, FieldInfo.contentValid_single, FieldInfo.expectedParams,
      forall_get_cons, LengthFits, Ty.default, Val.params, Scalar.InRange, Scalar.dflt]

end Zs
