import Verif.Template

/-!
# Template instantiation: lemmas (C39, C45)
-/

namespace Zs

/-- A type reference without template arguments. -/
def TRef.Plain (t : TRef) : Prop := t.targs = []

theorem foldl_append (ss : List String) : ∀ a b : String,
    ss.foldl (fun r s => r ++ s) (a ++ b) = a ++ ss.foldl (fun r s => r ++ s) b := by
  induction ss with
  | nil => intro a b; rfl
  | cons s ss ih => intro a b; simp only [List.foldl_cons, String.append_assoc, ih]

theorem foldl_append_name (ts : List TRef) : ∀ acc : String,
    ts.foldl (fun acc a => acc ++ a.name) acc = acc ++ String.join (ts.map TRef.name) := by
  intro acc
  have : ts.foldl (fun acc a => acc ++ a.name) acc =
      (ts.map TRef.name).foldl (fun r s => r ++ s) acc := by
    rw [List.foldl_map]
  rw [this, String.join, ← foldl_append]
  simp

theorem Run.bind_ok {α β : Type} {x : Run α} {f : α → Run β} {b : β}
    (h : Run.bind x f = some (.ok b)) : ∃ a, x = some (.ok a) ∧ f a = some (.ok b) := by
  unfold Run.bind at h
  split at h <;> first | (cases h; done) | exact ⟨_, rfl, h⟩

/-- Arguments without template arguments are passed on. -/
theorem instArgs_plain (fuel : Nat) (hf : 0 < fuel) (ts : List TRef) : ∀ st : TState,
    (∀ t ∈ ts, t.Plain) →
    instArgs (fun s a => instantiateType fuel s a "") st ts = some (.ok (st, ts)) := by
  obtain ⟨fuel, rfl⟩ : ∃ k, fuel = k + 1 := ⟨fuel - 1, by omega⟩
  induction ts with
  | nil => intro st _; rfl
  | cons t ts ih =>
    intro st h
    have ht : t.targs = [] := h t (by simp)
    have hone : instantiateType (fuel + 1) st t "" = some (.ok (st, t)) := by
      rw [instantiateType, if_pos ht]
    rw [instArgs, hone]
    simp only [Run.bind]
    rw [ih st (fun t ht => h t (by simp [ht]))]

/-- The type of a field that has no template arguments itself, after instantiation. -/
def substType (subst : List (String × TRef)) (t : TRef) : TRef :=
  match substLookup subst t.name with
  | some u => u.withArgs t.args
  | none => t

theorem instFields_plain (inst : TState → TRef → Run (TState × TRef)) (subst : List (String × TRef))
    (fs : List (String × TRef)) : ∀ st : TState, (∀ f ∈ fs, f.2.Plain) →
    instFields inst subst st fs = some (.ok (st, fs.map fun f => (f.1, substType subst f.2))) := by
  induction fs with
  | nil => intro st _; rfl
  | cons f fs ih =>
    intro st h
    have hf : f.2.targs = [] := h f (by simp)
    have hone : instField inst st subst f = some (.ok (st, (f.1, substType subst f.2))) := by
      unfold instField substType
      simp only [hf, ne_eq, not_true, if_false]
      split <;> rename_i hs <;> simp [hs]
    simp only [instFields, hone, Run.bind]
    rw [ih st (fun f hf => h f (by simp [hf]))]
    rfl

/-- After a successful instantiation the name is defined. -/
theorem instantiateType_stored (fuel : Nat) (st st' : TState) (t ref : TRef) (given : String)
    (kind : TKind) (d : TDef) (hl : st.lookup t.name = some (kind, d)) (ht : t.targs ≠ [])
    (h : instantiateType fuel st t given = some (.ok (st', ref))) :
    (∃ d', st'.store kind (if given = "" then instantiatedName t else given) = some d') ∧
    d.params ≠ [] ∧ d.params.length = t.targs.length ∧
    ref = .mk false st.package (if given = "" then instantiatedName t else given) 0 [] t.args := by
  cases fuel with
  | zero => cases h
  | succ fuel =>
    simp only [instantiateType, ht, if_false, hl] at h
    split at h
    · cases h
    · rename_i hp
      rw [not_or] at hp
      refine ⟨?_, hp.1, by have := hp.2; omega, ?_⟩
      · split at h
        · rename_i d' hd'
          cases h; exact ⟨d', hd'⟩
        · obtain ⟨r, _, h1⟩ := Run.bind_ok h
          obtain ⟨fs, _, h2⟩ := Run.bind_ok h1
          cases h2
          exact ⟨_, if_pos ⟨rfl, rfl⟩⟩
      · split at h
        · cases h; rfl
        · obtain ⟨r, _, h1⟩ := Run.bind_ok h
          obtain ⟨fs, _, h2⟩ := Run.bind_ok h1
          cases h2; rfl

end Zs
