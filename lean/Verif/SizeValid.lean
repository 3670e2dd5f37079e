import Verif.SchemaSize
import Verif.SchemaSpecLemmas

/-!
# Valid values are consistent
-/

namespace Zs

open Spec

theorem Val.allConsistent_iff {xs : List Val} :
    Val.AllConsistent xs ↔ ∀ x ∈ xs, x.Consistent := by
  refine ⟨Val.consistent_of_mem, fun h => ?_⟩
  induction xs with
  | nil => rw [Val.AllConsistent]; trivial
  | cons x xs ih =>
    rw [Val.AllConsistent]
    exact ⟨h x (List.mem_cons_self ..), ih (fun y hy => h y (List.mem_cons_of_mem _ hy))⟩

theorem Scalar.dflt_consistent (s : Scalar) : s.dflt.Consistent := by
  cases s <;> simp [Scalar.dflt, Val.Consistent, strBytes]

theorem strBytes_length (s : String) : (strBytes s).length = s.utf8ByteSize := by
  rw [← String.size_toByteArray]; rfl

theorem Scalar.inRange_consistent {cfg : Cfg} {env : Env} {s : Scalar} {v : Val}
    (h : s.InRange cfg env v) : v.Consistent := by
  cases v <;> first | (rw [Val.Consistent]; done) | skip
  all_goals cases s <;> first | exact absurd h id | skip
  all_goals simp only [Scalar.InRange] at h
  all_goals simp only [Val.Consistent]
  · rw [strBytes_length]; omega
  · exact h.1

theorem FieldInfo.default_consistent {info : FieldInfo} {d : Val} (h : d.Consistent) :
    (info.default d).Consistent := by
  unfold FieldInfo.default
  split
  · simp [Val.Consistent]
  · split
    · simp [Val.Consistent, Val.AllConsistent]
    · exact h

theorem FieldInfo.contentValid_consistent {info : FieldInfo} {valid : Env → Val → Prop} {d : Val}
    {env : Env} {x : Val} (hv : ∀ env v, valid env v → v.Consistent)
    (h : info.ContentValid valid d env x) : x.Consistent := by
  unfold FieldInfo.ContentValid at h
  split at h
  · exact hv env x h.1
  · obtain ⟨xs, rfl, _, h⟩ := h
    rw [Val.Consistent, Val.allConsistent_iff]
    intro y hy
    obtain ⟨i, hi⟩ := List.getElem?_of_mem hy
    exact hv env y (h i y hi).1

theorem FieldInfo.fieldValid_consistent {info : FieldInfo} {valid : Env → Val → Prop} {d : Val}
    {env : Env} {v : Val} (hd : d.Consistent) (hv : ∀ env v, valid env v → v.Consistent)
    (h : info.FieldValid valid d env v) : v.Consistent := by
  unfold FieldInfo.FieldValid at h
  split at h
  · split at h
    · rcases h with rfl | ⟨x, rfl, h⟩
      · simp [Val.Consistent]
      · rw [Val.Consistent]; exact contentValid_consistent hv h
    · exact contentValid_consistent hv h
  · rw [h]; exact default_consistent hd

mutual
theorem Ty.default_consistent : (t : Ty) → t.default.Consistent
  | .scalar s => by rw [Ty.default]; exact s.dflt_consistent
  | .enum _ _ => by rw [Ty.default, Val.Consistent] <;> simp
  | .bitmask base first => by rw [Ty.default]; exact base.ofInt_consistent first
  | .struct _ fields => by rw [Ty.default, Val.Consistent]; exact Fields.defaults_consistent fields
  | .choice _ _ cases => by rw [Ty.default, Val.Consistent]; exact Cases.defaults_consistent cases
  | .union _ members => by rw [Ty.default, Val.Consistent]; exact Fields.defaults_consistent members
theorem Fields.defaults_consistent : (fs : Fields) → Val.AllConsistent fs.defaults
  | .nil => by rw [Fields.defaults, Val.AllConsistent]; trivial
  | .cons info ty rest => by
    rw [Fields.defaults, Val.AllConsistent]
    exact ⟨FieldInfo.default_consistent (Ty.default_consistent ty), Fields.defaults_consistent rest⟩
theorem Cases.defaults_consistent : (cs : Cases) → Val.AllConsistent cs.defaults
  | .nil => by rw [Cases.defaults, Val.AllConsistent]; trivial
  | .field _ info ty rest => by
    rw [Cases.defaults, Val.AllConsistent]
    exact ⟨FieldInfo.default_consistent (Ty.default_consistent ty), Cases.defaults_consistent rest⟩
  | .empty _ rest => by rw [Cases.defaults]; exact Cases.defaults_consistent rest
end

mutual
/-- Valid values are consistent. -/
theorem Ty.valid_consistent (cfg : Cfg) : (t : Ty) → ∀ env v, t.Valid cfg env v → v.Consistent
  | .scalar s, env, v, h => by rw [Ty.Valid] at h; exact Scalar.inRange_consistent h
  | .enum _ _, env, v, h => by
    rw [Ty.Valid] at h
    obtain ⟨i, x, rfl, _⟩ := h
    rw [Val.Consistent] <;> simp
  | .bitmask base _, env, v, h => by rw [Ty.Valid] at h; exact Scalar.inRange_consistent h
  | .struct _ fields, env, v, h => by
    rw [Ty.Valid] at h
    obtain ⟨ps, vs, rfl, h⟩ := h
    rw [Val.Consistent]
    exact Fields.valid_consistent cfg fields ps [] vs h
  | .choice _ sel cases, env, v, h => by
    rw [Ty.Valid] at h
    obtain ⟨ps, vs, rfl, h⟩ := h
    rw [Val.Consistent]
    exact Cases.valid_consistent cfg cases ps (sel ps) false vs h
  | .union _ members, env, v, h => by
    rw [Ty.Valid] at h
    obtain ⟨ps, sel, vs, rfl, _, h⟩ := h
    rw [Val.Consistent]
    exact Fields.validMember_consistent cfg members ps sel vs h
theorem Fields.valid_consistent (cfg : Cfg) : (fs : Fields) → ∀ ps done vs,
    fs.Valid cfg ps done vs → Val.AllConsistent vs
  | .nil, ps, done, vs, h => by
    rw [Fields.Valid] at h; subst h; rw [Val.AllConsistent]; trivial
  | .cons info ty rest, ps, done, vs, h => by
    rw [Fields.Valid] at h
    obtain ⟨v, vs', rfl, h1, h2⟩ := h
    rw [Val.AllConsistent]
    exact ⟨FieldInfo.fieldValid_consistent (Ty.default_consistent ty) (Ty.valid_consistent cfg ty) h1,
      Fields.valid_consistent cfg rest _ _ _ h2⟩
theorem Fields.validMember_consistent (cfg : Cfg) : (fs : Fields) → ∀ ps sel vs,
    fs.ValidMember cfg ps sel vs → Val.AllConsistent vs
  | .nil, ps, sel, vs, h => by rw [Fields.ValidMember] at h; exact h.elim
  | .cons info ty rest, ps, 0, vs, h => by
    rw [Fields.ValidMember] at h
    obtain ⟨v, vs', rfl, h1, rfl⟩ := h
    rw [Val.AllConsistent]
    exact ⟨FieldInfo.fieldValid_consistent (Ty.default_consistent ty) (Ty.valid_consistent cfg ty) h1,
      Fields.defaults_consistent rest⟩
  | .cons info ty rest, ps, sel + 1, vs, h => by
    rw [Fields.ValidMember] at h
    obtain ⟨v, vs', rfl, rfl, h2⟩ := h
    rw [Val.AllConsistent]
    exact ⟨FieldInfo.default_consistent (Ty.default_consistent ty),
      Fields.validMember_consistent cfg rest _ _ _ h2⟩
theorem Cases.valid_consistent (cfg : Cfg) : (cs : Cases) → ∀ ps sel taken vs,
    cs.Valid cfg ps sel taken vs → Val.AllConsistent vs
  | .nil, ps, sel, taken, vs, h => by
    rw [Cases.Valid] at h; subst h; rw [Val.AllConsistent]; trivial
  | .field labels info ty rest, ps, sel, taken, vs, h => by
    rw [Cases.Valid] at h
    obtain ⟨v, vs', rfl, h1, h2⟩ := h
    rw [Val.AllConsistent]
    refine ⟨?_, Cases.valid_consistent cfg rest _ _ _ _ h2⟩
    split at h1
    · exact FieldInfo.fieldValid_consistent (Ty.default_consistent ty) (Ty.valid_consistent cfg ty) h1
    · rw [h1]; exact FieldInfo.default_consistent (Ty.default_consistent ty)
  | .empty labels rest, ps, sel, taken, vs, h => by
    rw [Cases.Valid] at h
    exact Cases.valid_consistent cfg rest _ _ _ _ h
end

end Zs
