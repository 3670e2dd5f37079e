import Verif.RecursiveLemmas

/-!
# Lemmas on the sizes and packing contexts of declarations that refer to each other
-/

namespace Zs

open Spec

/-- Fields that are no arrays. -/
abbrev single (info : FieldInfo) : Bool := info.array.isNone

theorem storedInside_full (info : FieldInfo) (t u : DTy) :
    storedInside (fullMemberType info t) = some u ↔ single info = true ∧ t = u := by
  unfold fullMemberType single
  cases info.array <;> cases info.optional <;> simp [storedInside]

mutual
/-- A reference in a field that is no array is stored inside of the type, possibly in types in between. -/
theorem mem_refs : ∀ (t : DTy) (j : Nat), (∀ i, t ≠ .ref i) → j ∈ refs single t →
    ∃ m ∈ t.members, ∃ u, storedInside m = some u ∧ j ∈ refs single u
  | .ref i, _, h, _ => absurd rfl (h i)
  | .scalar _, _, _, h => by simp [refs] at h
  | .enum _ _, _, _, h => by simp [refs] at h
  | .bitmask _ _, _, _, h => by simp [refs] at h
  | .struct _ fs, j, _, h => mem_fieldRefs fs j (by simpa only [refs] using h)
  | .choice _ _ cs, j, _, h => mem_caseRefs cs j (by simpa only [refs] using h)
  | .union _ fs, j, _, h => mem_fieldRefs fs j (by simpa only [refs] using h)
theorem mem_fieldRefs : ∀ (fs : DFields) (j : Nat), j ∈ fieldRefs single fs →
    ∃ m ∈ fs.members, ∃ u, storedInside m = some u ∧ j ∈ refs single u
  | .nil, _, h => by simp [fieldRefs] at h
  | .cons info ty rest, j, h => by
    simp only [fieldRefs, List.mem_append] at h
    rcases h with h | h
    · split at h
      · next hi => exact ⟨_, List.mem_cons_self, ty, (storedInside_full info ty ty).mpr ⟨hi, rfl⟩, h⟩
      · cases h
    · obtain ⟨m, hm, u, hu⟩ := mem_fieldRefs rest j h
      exact ⟨m, List.mem_cons_of_mem _ hm, u, hu⟩
theorem mem_caseRefs : ∀ (cs : DCases) (j : Nat), j ∈ caseRefs single cs →
    ∃ m ∈ cs.members, ∃ u, storedInside m = some u ∧ j ∈ refs single u
  | .nil, _, h => by simp [caseRefs] at h
  | .field labels info ty rest, j, h => by
    simp only [caseRefs, List.mem_append] at h
    rcases h with h | h
    · split at h
      · next hi => exact ⟨_, List.mem_cons_self, ty, (storedInside_full info ty ty).mpr ⟨hi, rfl⟩, h⟩
      · cases h
    · obtain ⟨m, hm, u, hu⟩ := mem_caseRefs rest j h
      exact ⟨m, List.mem_cons_of_mem _ hm, u, hu⟩
  | .empty labels rest, j, h => mem_caseRefs rest j (by simpa only [caseRefs] using h)
end

mutual
theorem hasSize_of_refs (d : Decls) : ∀ t : DTy, (∀ j ∈ refs single t, HasSize d (.ref j)) → HasSize d t
  | .ref i, h => h i (by simp [refs])
  | .scalar _, _ => .type (by simp) (by simp [DTy.members])
  | .enum _ _, _ => .type (by simp) (by simp [DTy.members])
  | .bitmask _ _, _ => .type (by simp) (by simp [DTy.members])
  | .struct _ fs, h => .type (by simp) (fieldsHaveSize_of_refs d fs (by simpa only [refs] using h))
  | .choice _ _ cs, h => .type (by simp) (casesHaveSize_of_refs d cs (by simpa only [refs] using h))
  | .union _ fs, h => .type (by simp) (fieldsHaveSize_of_refs d fs (by simpa only [refs] using h))
theorem fieldsHaveSize_of_refs (d : Decls) : ∀ fs : DFields, (∀ j ∈ fieldRefs single fs, HasSize d (.ref j)) →
    ∀ m ∈ fs.members, ∀ u, storedInside m = some u → HasSize d u
  | .nil, _, _, hm, _, _ => by cases hm
  | .cons info ty rest, h, m, hm, u, hu => by
    simp only [fieldRefs, List.mem_append] at h
    rcases List.mem_cons.mp hm with rfl | hm
    · obtain ⟨hi, rfl⟩ := (storedInside_full info ty u).mp hu
      exact hasSize_of_refs d ty (fun j hj => h j (.inl (by rw [if_pos hi]; exact hj)))
    · exact fieldsHaveSize_of_refs d rest (fun j hj => h j (.inr hj)) m hm u hu
theorem casesHaveSize_of_refs (d : Decls) : ∀ cs : DCases, (∀ j ∈ caseRefs single cs, HasSize d (.ref j)) →
    ∀ m ∈ cs.members, ∀ u, storedInside m = some u → HasSize d u
  | .nil, _, _, hm, _, _ => by cases hm
  | .field labels info ty rest, h, m, hm, u, hu => by
    simp only [caseRefs, List.mem_append] at h
    rcases List.mem_cons.mp hm with rfl | hm
    · obtain ⟨hi, rfl⟩ := (storedInside_full info ty u).mp hu
      exact hasSize_of_refs d ty (fun j hj => h j (.inl (by rw [if_pos hi]; exact hj)))
    · exact casesHaveSize_of_refs d rest (fun j hj => h j (.inr hj)) m hm u hu
  | .empty labels rest, h, m, hm, u, hu =>
    casesHaveSize_of_refs d rest (by simpa only [caseRefs] using h) m hm u hu
end

/-- A type has no size exactly if there is an endless chain of fields that are no arrays. -/
theorem not_hasSize_iff (d : Decls) (i : Nat) : ¬ HasSize d (.ref i) ↔ Endless (Holds d) i := by
  constructor
  · intro h
    refine endless_of (fun i => ¬ HasSize d (.ref i)) (fun i hi => ?_) h
    refine Classical.byContradiction fun hno => hi (.ref (hasSize_of_refs d _ fun j hj => ?_))
    exact Classical.byContradiction fun hj' => hno ⟨j, hj, hj'⟩
  · intro he h
    have key : ∀ t, HasSize d t → ∀ j ∈ refs single t, ¬ Endless (Holds d) j := by
      intro t ht
      induction ht with
      | @ref i _ ih =>
        intro j hj
        simp only [refs, List.mem_singleton] at hj
        subst hj
        rintro ⟨chain, h0, hs⟩
        refine ih (chain 1) (by have := hs 0; rw [h0] at this; exact this) ⟨fun n => chain (n + 1), rfl, fun n => hs _⟩
      | @type t hr _ ih =>
        intro j hj
        obtain ⟨m, hm, u, hu, hj⟩ := mem_refs t j hr hj
        exact ih m hm u hu j hj
    exact key _ h i (by simp [refs]) he

/-! ## Packing contexts -/

/-- With enough active calls the packing contexts are created, and they do not depend on how many are allowed. -/
def Creates {α : Type} (f : Nat → Option α) : Prop := ∃ k a, ∀ n, k ≤ n → f n = some a

theorem Creates.const {α : Type} (a : α) : Creates (fun _ => some a) := ⟨0, a, fun _ _ => rfl⟩

theorem Creates.bind {α β : Type} {f : Nat → Option α} {g : α → Nat → Option β} (hf : Creates f)
    (hg : ∀ a, Creates (g a)) : Creates (fun n => (f n).bind fun a => g a n) := by
  obtain ⟨k, a, h⟩ := hf
  obtain ⟨l, b, h'⟩ := hg a
  exact ⟨max k l, b, fun n hn => by simp [h n (by omega), h' n (by omega)]⟩

theorem FieldInfo.noContext_single (info : FieldInfo) (t : DTy) (h : ¬ info.noContext t = true) : single info = true := by
  unfold single
  cases ha : info.array with
  | none => rfl
  | some a => cases t <;> simp [FieldInfo.noContext, ha] at h

theorem fields_create (d : Decls) : ∀ fs : DFields,
    (∀ m ∈ fs.members, ∀ u, storedInside m = some u → Creates (fun n => u.createNode (createDecl d n))) →
    Creates (fun n => fs.createNodes (createDecl d n))
  | .nil, _ => by simpa only [DFields.createNodes] using Creates.const []
  | .cons info ty rest, h => by
    simp only [DFields.createNodes]
    have tail : ∀ x : Node, Creates (fun n => (rest.createNodes (createDecl d n)).bind fun ns => some (x :: ns)) :=
      fun x => Creates.bind (g := fun ns _ => some (x :: ns))
        (fields_create d rest fun m hm => h m (List.mem_cons_of_mem _ hm)) (fun ns => Creates.const _)
    by_cases hi : info.noContext ty = true
    · simp only [hi, if_true]
      exact Creates.bind (f := fun _ => some Node.new) (Creates.const _) tail
    · simp only [hi, if_false, Bool.false_eq_true]
      exact Creates.bind (h _ List.mem_cons_self ty ((storedInside_full info ty ty).mpr
        ⟨info.noContext_single ty hi, rfl⟩)) tail

theorem cases_create (d : Decls) : ∀ cs : DCases,
    (∀ m ∈ cs.members, ∀ u, storedInside m = some u → Creates (fun n => u.createNode (createDecl d n))) →
    Creates (fun n => cs.createNodes (createDecl d n))
  | .nil, _ => by simpa only [DCases.createNodes] using Creates.const []
  | .field labels info ty rest, h => by
    simp only [DCases.createNodes]
    have tail : ∀ x : Node, Creates (fun n => (rest.createNodes (createDecl d n)).bind fun ns => some (x :: ns)) :=
      fun x => Creates.bind (g := fun ns _ => some (x :: ns))
        (cases_create d rest fun m hm => h m (List.mem_cons_of_mem _ hm)) (fun ns => Creates.const _)
    by_cases hi : info.noContext ty = true
    · simp only [hi, if_true]
      exact Creates.bind (f := fun _ => some Node.new) (Creates.const _) tail
    · simp only [hi, if_false, Bool.false_eq_true]
      exact Creates.bind (h _ List.mem_cons_self ty ((storedInside_full info ty ty).mpr
        ⟨info.noContext_single ty hi, rfl⟩)) tail
  | .empty labels rest, h => by
    simp only [DCases.createNodes]
    exact cases_create d rest h

theorem hasSize_creates (d : Decls) (t : DTy) (h : HasSize d t) :
    Creates (fun n => t.createNode (createDecl d n)) := by
  induction h with
  | @ref i _ ih =>
    obtain ⟨k, node, h⟩ := ih
    refine ⟨k + 1, node, fun n hn => ?_⟩
    obtain ⟨n, rfl⟩ : ∃ m, n = m + 1 := ⟨n - 1, by omega⟩
    simpa only [DTy.createNode, createDecl] using h n (by omega)
  | @type t hr _ ih =>
    cases t with
    | ref i => exact absurd rfl (hr i)
    | scalar s => simpa only [DTy.createNode] using Creates.const _
    | enum base items => simpa only [DTy.createNode] using Creates.const _
    | bitmask base first => simpa only [DTy.createNode] using Creates.const _
    | union ps ms => simpa only [DTy.createNode] using Creates.const _
    | struct ps fs =>
      simp only [DTy.createNode]
      exact Creates.bind (g := fun cs _ => some (Node.mk cs none)) (fields_create d fs ih) (fun cs => Creates.const _)
    | choice ps sel cs =>
      simp only [DTy.createNode]
      exact Creates.bind (g := fun cs _ => some (Node.mk cs none)) (cases_create d cs ih) (fun cs => Creates.const _)

theorem Ty.isMarshaler_ops (cfg : Cfg) (t : Ty) : (t.ops cfg).isMarshaler = t.isCompound := by
  cases t <;> simp only [Ty.ops, Ty.isCompound] <;> rfl

/-- The node of a field in the model of `Verif/Schema.lean`. -/
theorem createContext_field {cfg : Cfg} {σ : Nat → Ty} {call : Nat → Option Node}
    (hcall : ∀ j node, call j = some node → (σ j).isCompound = true)
    {info : FieldInfo} {ty : DTy} {node : Node}
    (hty : ty.createNode call = some node → ((ty.close σ).ops cfg).createContext = node)
    (h : (if info.noContext ty then some Node.new else ty.createNode call) = some node) :
    FieldOps.createContext ⟨info, (ty.close σ).ops cfg⟩ = node := by
  unfold FieldOps.createContext FieldOps.isPackable
  simp only [Ty.isMarshaler_ops]
  by_cases ha : info.array.isSome = true
  · simp only [ha, if_true]
    cases ty <;> simp [FieldInfo.noContext, ha] at h <;> exact h
  · simp only [ha, if_false, Bool.false_eq_true]
    have ha' : info.array.isSome = false := by simpa using ha
    cases ty with
    | scalar s =>
      simp only [FieldInfo.noContext, ha', Bool.false_or] at h
      have hpk : ((Ty.scalar s).ops cfg).isPackable = s.isPackable := rfl
      simp only [DTy.close, Ty.isCompound, Bool.false_or, hpk] at hty ⊢
      cases ho : info.isOffsetField <;> cases hs : s.isPackable <;> simp [ho, hs] at h ⊢
      · exact h
      · exact hty h
      · exact h
      · exact h
    | ref j =>
      simp only [FieldInfo.noContext, ha', if_false, Bool.false_eq_true] at h
      have := hcall j node (by simpa only [DTy.createNode] using h)
      simp only [DTy.close] at hty ⊢
      have hc : ((σ j).isCompound || if info.isOffsetField = true then false else ((σ j).ops cfg).isPackable) = true := by
        rw [this]; rfl
      exact (if_pos hc).trans (hty h)
    | _ =>
      simp only [FieldInfo.noContext, ha', if_false, Bool.false_eq_true] at h
      simp only [DTy.close, Ty.isCompound, Bool.true_or, if_true] at hty ⊢
      exact hty h

mutual
theorem createNode_ops {cfg : Cfg} {σ : Nat → Ty} {call : Nat → Option Node}
    (hcall : ∀ j node, call j = some node → (σ j).isCompound = true ∧ ((σ j).ops cfg).createContext = node) :
    ∀ (t : DTy) (node : Node), t.createNode call = some node → ((t.close σ).ops cfg).createContext = node
  | .ref i, node, h => (hcall i node (by simpa only [DTy.createNode] using h)).2
  | .scalar s, node, h => by simp only [DTy.createNode] at h; cases h; rfl
  | .enum b items, node, h => by simp only [DTy.createNode] at h; cases h; rfl
  | .bitmask b first, node, h => by simp only [DTy.createNode] at h; cases h; rfl
  | .union ps ms, node, h => by simp only [DTy.createNode] at h; cases h; rfl
  | .struct ps fs, node, h => by
    simp only [DTy.createNode] at h
    obtain ⟨cs, h1, h2⟩ := Option.bind_eq_some_iff.mp h
    cases h2
    show Node.mk (((fs.close σ).ops cfg).map FieldOps.createContext) none = _
    rw [createNodes_ops hcall fs cs h1]
  | .choice ps sel cs, node, h => by
    simp only [DTy.createNode] at h
    obtain ⟨ns, h1, h2⟩ := Option.bind_eq_some_iff.mp h
    cases h2
    show Node.mk ((caseFields ((cs.close σ).ops cfg)).map FieldOps.createContext) none = _
    rw [createCases_ops hcall cs ns h1]
theorem createNodes_ops {cfg : Cfg} {σ : Nat → Ty} {call : Nat → Option Node}
    (hcall : ∀ j node, call j = some node → (σ j).isCompound = true ∧ ((σ j).ops cfg).createContext = node) :
    ∀ (fs : DFields) (ns : List Node), fs.createNodes call = some ns →
      ((fs.close σ).ops cfg).map FieldOps.createContext = ns
  | .nil, ns, h => by simp only [DFields.createNodes] at h; cases h; rfl
  | .cons info ty rest, ns, h => by
    simp only [DFields.createNodes] at h
    obtain ⟨n, h1, h2⟩ := Option.bind_eq_some_iff.mp h
    obtain ⟨ns', h3, h4⟩ := Option.bind_eq_some_iff.mp h2
    cases h4
    simp only [DFields.close, Fields.ops, List.map_cons]
    rw [createNodes_ops hcall rest ns' h3,
      createContext_field (fun j node hj => (hcall j node hj).1) (createNode_ops hcall ty n) h1]
theorem createCases_ops {cfg : Cfg} {σ : Nat → Ty} {call : Nat → Option Node}
    (hcall : ∀ j node, call j = some node → (σ j).isCompound = true ∧ ((σ j).ops cfg).createContext = node) :
    ∀ (cs : DCases) (ns : List Node), cs.createNodes call = some ns →
      (caseFields ((cs.close σ).ops cfg)).map FieldOps.createContext = ns
  | .nil, ns, h => by simp only [DCases.createNodes] at h; cases h; rfl
  | .field labels info ty rest, ns, h => by
    simp only [DCases.createNodes] at h
    obtain ⟨n, h1, h2⟩ := Option.bind_eq_some_iff.mp h
    obtain ⟨ns', h3, h4⟩ := Option.bind_eq_some_iff.mp h2
    cases h4
    have ih := createCases_ops hcall rest ns' h3
    simp only [caseFields] at ih
    simp only [DCases.close, Cases.ops, caseFields, List.filterMap_cons, List.map_cons]
    rw [ih, createContext_field (fun j node hj => (hcall j node hj).1) (createNode_ops hcall ty n) h1]
  | .empty labels rest, ns, h => by
    simp only [DCases.createNodes] at h
    have ih := createCases_ops hcall rest ns h
    simp only [caseFields] at ih
    simpa only [DCases.close, Cases.ops, caseFields, List.filterMap_cons] using ih
end

theorem createDecl_ops (cfg : Cfg) (d : Decls) (hd : ∀ i σ, ((d i).close σ).isCompound = true) (below : Nat → Ty) :
    ∀ (n m i : Nat) (node : Node), n ≤ m → createDecl d n i = some node →
      ((unfoldDecl d below m i).ops cfg).createContext = node
  | 0, _, _, _, _, h => by cases h
  | n + 1, 0, _, _, hn, _ => by omega
  | n + 1, m + 1, i, node, hn, h => by
    refine createNode_ops (call := createDecl d n) (fun j node hj => ⟨?_, ?_⟩) (d i) node h
    · cases n with
      | zero => cases hj
      | succ n =>
        obtain ⟨m, rfl⟩ : ∃ k, m = k + 1 := ⟨m - 1, by omega⟩
        exact hd j _
    · exact createDecl_ops cfg d hd below n m j node (by omega) hj

end Zs
