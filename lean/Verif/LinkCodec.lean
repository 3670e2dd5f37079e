import Verif.LinkAgree
import Verif.EmitSchema

/-!
# Compound types whose fields have types that agree
-/

namespace Zs

namespace Link

open Emit

/-- The fields are the same but for their types, which agree on the sets `Qs`. -/
def AgreeAll : List (Bool → Val → Prop) → List FieldOps → List FieldOps → Prop
  | [], [], [] => True
  | Q :: Qs, f :: fs, f' :: fs' => (f'.info = f.info ∧ TypeAgrees Q f.ty f'.ty) ∧ AgreeAll Qs fs fs'
  | _, _, _ => False

/-- The values of the fields of a structure are in the sets. -/
def WithinAll (packed : Bool) (ps : List Val) : List (Bool → Val → Prop) → List FieldOps → List Val →
    List Val → Prop
  | [], [], _, [] => True
  | Q :: Qs, f :: fs, done, v :: vs => Within Q f.info packed ⟨ps, done⟩ v ∧
      WithinAll packed ps Qs fs (done ++ [v]) vs
  | _, _, _, _ => False

/-- The value of the `j`-th field is in its set. -/
def WithinAt (packed : Bool) (ps : List Val) (Qs : List (Bool → Val → Prop)) (fs : List FieldOps)
    (vs : List Val) (j : Nat) : Prop :=
  ∀ Q f v, Qs[j]? = some Q → fs[j]? = some f → vs[j]? = some v → Within Q f.info packed ⟨ps, []⟩ v

section

variable {cfg : Cfg} {packed b : Bool} (hb : packed = true → b = true)

theorem field_eta {f f' : FieldOps} (h : f'.info = f.info) : f' = ⟨f.info, f'.ty⟩ := by
  cases f'; cases f; cases h; rfl

theorem fieldEncode_agree {Q : Bool → Val → Prop} {f f' : FieldOps} (hi : f'.info = f.info)
    (ht : TypeAgrees Q f.ty f'.ty) (hb : packed = true → b = true) {i : Nat} {env : Env} {v : Val} {n : Node}
    {w : Writer} (hx : Within Q f.info b env v) :
    f'.encode packed i env v n w = f.encode packed i env v n w := by
  rw [field_eta hi]
  exact encode_agree ht hb hx

theorem fieldBitsize_agree {Q : Bool → Val → Prop} {f f' : FieldOps} (hi : f'.info = f.info)
    (ht : TypeAgrees Q f.ty f'.ty) (hb : packed = true → b = true) {i : Nat} {env : Env} {v : Val} {n : Node}
    {w : Nat} (hx : Within Q f.info b env v) :
    f'.bitsize packed i env v n w = f.bitsize packed i env v n w := by
  rw [field_eta hi]
  exact bitsize_agree ht hb hx

theorem fieldInit_agree {Q : Bool → Val → Prop} {f f' : FieldOps} (hi : f'.info = f.info)
    (ht : TypeAgrees Q f.ty f'.ty) {i : Nat} {env : Env} {v : Val} {n : Node}
    (hx : Within Q f.info true env v) :
    f'.initContext i env v n = f.initContext i env v n := by
  rw [field_eta hi]
  exact initContext_agree ht hx

theorem fieldDecode_agree {Q : Bool → Val → Prop} {f f' : FieldOps} (hi : f'.info = f.info)
    (ht : TypeAgrees Q f.ty f'.ty) (hb : packed = true → b = true) {i : Nat} {env : Env} {old v : Val}
    {n n' : Node} {r r' : Reader} (hx : Within Q f.info b env v)
    (hr : f.decode cfg packed i env old n r = .ok ((v, n'), r')) :
    f'.decode cfg packed i env old n r = .ok ((v, n'), r') := by
  rw [field_eta hi]
  exact decode_agree ht hb hx hr

theorem dflts_agree : ∀ {Qs : List (Bool → Val → Prop)} {fs fs' : List FieldOps}, AgreeAll Qs fs fs' →
    fs'.map FieldOps.dflt = fs.map FieldOps.dflt
  | [], [], [], _ => rfl
  | _ :: _, f :: _, f' :: _, h => by
    rw [List.map_cons, List.map_cons, dflts_agree h.2, field_eta h.1.1, dflt_agree h.1.2]
  | [], [], _ :: _, h => h.elim
  | [], _ :: _, _, h => h.elim
  | _ :: _, [], _, h => h.elim
  | _ :: _, _ :: _, [], h => h.elim

theorem contexts_agree : ∀ {Qs : List (Bool → Val → Prop)} {fs fs' : List FieldOps}, AgreeAll Qs fs fs' →
    fs'.map FieldOps.createContext = fs.map FieldOps.createContext
  | [], [], [], _ => rfl
  | _ :: _, f :: _, f' :: _, h => by
    rw [List.map_cons, List.map_cons, contexts_agree h.2, field_eta h.1.1, createContext_agree h.1.2]
  | [], [], _ :: _, h => h.elim
  | [], _ :: _, _, h => h.elim
  | _ :: _, [], _, h => h.elim
  | _ :: _, _ :: _, [], h => h.elim

theorem agreeAll_get : ∀ {Qs : List (Bool → Val → Prop)} {fs fs' : List FieldOps}, AgreeAll Qs fs fs' →
    ∀ j : Nat, (Qs[j]? = none ∧ fs[j]? = none ∧ fs'[j]? = none) ∨
      ∃ (Q : Bool → Val → Prop) (f f' : FieldOps), Qs[j]? = some Q ∧ fs[j]? = some f ∧ fs'[j]? = some f' ∧ f'.info = f.info ∧
        TypeAgrees Q f.ty f'.ty
  | [], [], [], _, j => .inl ⟨rfl, rfl, rfl⟩
  | _ :: _, f :: _, f' :: _, h, 0 => .inr ⟨_, _, _, rfl, rfl, rfl, h.1.1, h.1.2⟩
  | _ :: _, f :: _, f' :: _, h, j + 1 => by simpa using agreeAll_get h.2 j
  | [], [], _ :: _, h, _ => h.elim
  | [], _ :: _, _, h, _ => h.elim
  | _ :: _, [], _, h, _ => h.elim
  | _ :: _, _ :: _, [], h, _ => h.elim

theorem agreeAll_length : ∀ {Qs : List (Bool → Val → Prop)} {fs fs' : List FieldOps}, AgreeAll Qs fs fs' →
    fs'.length = fs.length
  | [], [], [], _ => rfl
  | _ :: _, f :: _, f' :: _, h => by simp [agreeAll_length h.2]
  | [], [], _ :: _, h => h.elim
  | [], _ :: _, _, h => h.elim
  | _ :: _, [], _, h => h.elim
  | _ :: _, _ :: _, [], h => h.elim

/-! ## Structures -/

include hb

theorem encodeFields_agree {ps : List Val} : ∀ {Qs : List (Bool → Val → Prop)} {fs fs' : List FieldOps},
    AgreeAll Qs fs fs' → ∀ {i : Nat} {done vs : List Val} {n : Node} {w : Writer},
    WithinAll b ps Qs fs done vs →
    encodeFields packed ps fs' i done vs n w = encodeFields packed ps fs i done vs n w
  | [], [], [], _, _, _, _, _, _, _ => rfl
  | _ :: _, f :: _, f' :: _, h, i, done, v :: vs, n, w, hv => by
    simp only [encodeFields]
    rw [fieldEncode_agree h.1.1 h.1.2 hb hv.1]
    exact bind_congr' fun y => encodeFields_agree h.2 hv.2
  | _ :: _, f :: _, f' :: _, h, i, done, [], n, w, hv => hv.elim
  | [], [], _ :: _, h, _, _, _, _, _, _ => h.elim
  | [], _ :: _, _, h, _, _, _, _, _, _ => h.elim
  | _ :: _, [], _, h, _, _, _, _, _, _ => h.elim
  | _ :: _, _ :: _, [], h, _, _, _, _, _, _ => h.elim

theorem bitsizeFields_agree {ps : List Val} : ∀ {Qs : List (Bool → Val → Prop)} {fs fs' : List FieldOps},
    AgreeAll Qs fs fs' → ∀ {i : Nat} {done vs : List Val} {n : Node} {w : Nat},
    WithinAll b ps Qs fs done vs →
    bitsizeFields packed ps fs' i done vs n w = bitsizeFields packed ps fs i done vs n w
  | [], [], [], _, _, _, _, _, _, _ => rfl
  | _ :: _, f :: _, f' :: _, h, i, done, v :: vs, n, w, hv => by
    simp only [bitsizeFields]
    rw [fieldBitsize_agree h.1.1 h.1.2 hb hv.1]
    exact bind_congr' fun y => bitsizeFields_agree h.2 hv.2
  | _ :: _, f :: _, f' :: _, h, i, done, [], n, w, hv => hv.elim
  | [], [], _ :: _, h, _, _, _, _, _, _ => h.elim
  | [], _ :: _, _, h, _, _, _, _, _, _ => h.elim
  | _ :: _, [], _, h, _, _, _, _, _, _ => h.elim
  | _ :: _, _ :: _, [], h, _, _, _, _, _, _ => h.elim

theorem decodeFields_agree {ps : List Val} : ∀ {Qs : List (Bool → Val → Prop)} {fs fs' : List FieldOps},
    AgreeAll Qs fs fs' → ∀ {i : Nat} {done olds tl : List Val} {n n' : Node} {r r' : Reader},
    WithinAll b ps Qs fs done tl →
    decodeFields cfg packed ps fs i done olds n r = .ok ((done ++ tl, n'), r') →
    decodeFields cfg packed ps fs' i done olds n r = .ok ((done ++ tl, n'), r')
  | [], [], [], _, _, _, _, _, _, _, _, _, _, hr => hr
  | _ :: _, f :: _, f' :: _, h, i, done, old :: olds, tl, n, n', r, r', hv, hr => by
    simp only [decodeFields, Res.bind_eq_ok] at hr ⊢
    obtain ⟨y, h1, hr⟩ := hr
    obtain ⟨tl', h2, -⟩ := decodeFields_prefix hr
    rw [List.append_assoc] at h2
    have h2 := List.append_cancel_left h2
    subst h2
    refine ⟨y, fieldDecode_agree h.1.1 h.1.2 hb hv.1 h1, ?_⟩
    have := decodeFields_agree h.2 (i := i + 1) (done := done ++ [y.1.1]) (tl := tl') hv.2
      (by simpa using hr)
    simpa using this
  | _ :: _, f :: _, f' :: _, h, i, done, [], tl, n, n', r, r', hv, hr => by simp [decodeFields] at hr
  | [], [], _ :: _, h, _, _, _, _, _, _, _, _, _, _ => h.elim
  | [], _ :: _, _, h, _, _, _, _, _, _, _, _, _, _ => h.elim
  | _ :: _, [], _, h, _, _, _, _, _, _, _, _, _, _ => h.elim
  | _ :: _, _ :: _, [], h, _, _, _, _, _, _, _, _, _, _ => h.elim

omit hb

theorem initFields_agree {ps : List Val} : ∀ {Qs : List (Bool → Val → Prop)} {fs fs' : List FieldOps},
    AgreeAll Qs fs fs' → ∀ {i : Nat} {done vs : List Val} {n : Node},
    WithinAll true ps Qs fs done vs →
    initFields ps fs' i done vs n = initFields ps fs i done vs n
  | [], [], [], _, _, _, _, _, _ => rfl
  | _ :: _, f :: _, f' :: _, h, i, done, v :: vs, n, hv => by
    simp only [initFields]
    rw [fieldInit_agree h.1.1 h.1.2 hv.1]
    exact bind_congr' fun y => initFields_agree h.2 hv.2
  | _ :: _, f :: _, f' :: _, h, i, done, [], n, hv => hv.elim
  | [], [], _ :: _, h, _, _, _, _, _ => h.elim
  | [], _ :: _, _, h, _, _, _, _, _ => h.elim
  | _ :: _, [], _, h, _, _, _, _, _ => h.elim
  | _ :: _, _ :: _, [], h, _, _, _, _, _ => h.elim

theorem struct_agrees {P : Bool → Val → Prop} {Qs : List (Bool → Val → Prop)} {fs fs' : List FieldOps}
    {params : List Val} (h : AgreeAll Qs fs fs')
    (hP : ∀ b v, P b v → ∃ ps vs, v = .obj ps vs ∧ WithinAll b ps Qs fs [] vs) :
    CodecAgrees P (structCodec cfg params fs) (structCodec cfg params fs') where
  dflt := by simp only [structCodec, dflts_agree h]
  createContext := by simp only [structCodec, contexts_agree h]
  write b x w hx := by
    obtain ⟨ps, vs, rfl, hv⟩ := hP b x hx
    simp only [structCodec]
    rw [encodeFields_agree (b := b) (by simp) h hv]
  bitsize b x w hx := by
    obtain ⟨ps, vs, rfl, hv⟩ := hP b x hx
    simp only [structCodec]
    rw [bitsizeFields_agree (b := b) (by simp) h hv]
  read b ps r x r' hr hx := by
    obtain ⟨ps', vs, rfl, hv⟩ := hP b x hx
    simp only [structCodec, Val.withParams, Res.bind_eq_ok, Res.pure_eq, Res.ok.injEq, Prod.mk.injEq,
      Val.obj.injEq] at hr ⊢
    obtain ⟨y, h1, ⟨rfl, rfl⟩, rfl⟩ := hr
    exact ⟨y, decodeFields_agree (b := b) (done := []) (by simp) h hv h1, ⟨rfl, rfl⟩, rfl⟩
  initContext x n hx := by
    obtain ⟨ps, vs, rfl, hv⟩ := hP true x hx
    exact initFields_agree h hv
  writePacked x n w hx := by
    obtain ⟨ps, vs, rfl, hv⟩ := hP true x hx
    exact encodeFields_agree (b := true) (by simp) h hv
  bitsizePacked x n w hx := by
    obtain ⟨ps, vs, rfl, hv⟩ := hP true x hx
    simp only [structCodec]
    rw [bitsizeFields_agree (b := true) (by simp) h hv]
  readPacked ps n r x n' r' hr hx := by
    obtain ⟨ps', vs, rfl, hv⟩ := hP true x hx
    simp only [structCodec, Val.withParams, Res.bind_eq_ok, Res.pure_eq, Res.ok.injEq, Prod.mk.injEq,
      Val.obj.injEq] at hr ⊢
    obtain ⟨y, h1, ⟨⟨rfl, rfl⟩, h2⟩, rfl⟩ := hr
    exact ⟨y, decodeFields_agree (b := true) (done := []) (by simp) h hv h1, ⟨⟨rfl, rfl⟩, h2⟩, rfl⟩

/-! ## Unions -/

theorem union_agrees {P : Bool → Val → Prop} {Qs : List (Bool → Val → Prop)} {fs fs' : List FieldOps}
    {params : List Val} (h : AgreeAll Qs fs fs')
    (hP : ∀ b v, P b v → ∃ ps k vs, v = .union ps k vs ∧ WithinAt b ps Qs fs vs k) :
    CodecAgrees P (unionCodec cfg params fs) (unionCodec cfg params fs') := by
  have he : ∀ {packed b : Bool} (_ : packed = true → b = true) {ps : List Val} {k : Nat} {vs : List Val} {n : Node}
      {w : Writer}, WithinAt b ps Qs fs vs k →
      encodeMember packed fs' ps k vs n w = encodeMember packed fs ps k vs n w := by
    intro packed b hb ps k vs n w hv
    unfold encodeMember
    rcases agreeAll_get h k with ⟨-, h2, h3⟩ | ⟨Q, f, f', h1, h2, h3, hi, ht⟩
    · rw [h2, h3]
    · rw [h2, h3]
      cases hvs : vs[k]? with
      | none => rfl
      | some v => exact fieldEncode_agree hi ht hb (hv Q f v h1 h2 hvs)
  have hs : ∀ {packed b : Bool} (_ : packed = true → b = true) {ps : List Val} {k : Nat} {vs : List Val} {n : Node}
      {w : Nat}, WithinAt b ps Qs fs vs k →
      bitsizeMember packed fs' ps k vs n w = bitsizeMember packed fs ps k vs n w := by
    intro packed b hb ps k vs n w hv
    unfold bitsizeMember
    rcases agreeAll_get h k with ⟨-, h2, h3⟩ | ⟨Q, f, f', h1, h2, h3, hi, ht⟩
    · rw [h2, h3]
    · rw [h2, h3]
      cases hvs : vs[k]? with
      | none => rfl
      | some v => exact fieldBitsize_agree hi ht hb (hv Q f v h1 h2 hvs)
  have hd : ∀ {packed b : Bool} (_ : packed = true → b = true) {ps ps' : List Val} {k k' : Nat}
      {olds vs : List Val} {n n' : Node}
      {r r' : Reader}, WithinAt b ps' Qs fs vs k' →
      decodeMember cfg packed fs ps k olds n r = .ok ((.union ps' k' vs, n'), r') →
      decodeMember cfg packed fs' ps k olds n r = .ok ((.union ps' k' vs, n'), r') := by
    intro packed b hb ps ps' k k' olds vs n n' r r' hv hr
    unfold decodeMember at hr ⊢
    rcases agreeAll_get h k with ⟨-, h2, h3⟩ | ⟨Q, f, f', h1, h2, h3, hi, ht⟩
    · rw [h2] at hr; cases hr
    · rw [h2] at hr
      rw [h3]
      cases ho : olds[k]? with
      | none => rw [ho] at hr; cases hr
      | some old =>
        rw [ho] at hr
        simp only [Res.bind_eq_ok, Res.pure_eq, Res.ok.injEq, Prod.mk.injEq, Val.union.injEq] at hr ⊢
        obtain ⟨y, h4, ⟨⟨rfl, rfl, rfl⟩, h5⟩, rfl⟩ := hr
        refine ⟨y, fieldDecode_agree hi ht hb (hv Q f y.1.1 h1 h2 ?_) h4, ⟨⟨rfl, rfl, rfl⟩, h5⟩, rfl⟩
        obtain ⟨hlt, -⟩ := List.getElem?_eq_some_iff.1 ho
        exact List.getElem?_set_self hlt
  refine ⟨?_, rfl, ?_, ?_, ?_, ?_, ?_, ?_, ?_⟩
  · simp only [unionCodec, dflts_agree h]
  · intro b x w hx
    obtain ⟨ps, k, vs, rfl, hv⟩ := hP b x hx
    simp only [unionCodec]
    refine bind_congr' fun w => ?_
    rw [he (b := b) (by simp) hv]
  · intro b x w hx
    obtain ⟨ps, k, vs, rfl, hv⟩ := hP b x hx
    simp only [unionCodec]
    refine bind_congr' fun w => ?_
    rw [hs (b := b) (by simp) hv]
  · intro b ps r x r' hr hx
    obtain ⟨ps', k, vs, rfl, hv⟩ := hP b x hx
    simp only [unionCodec, Val.withParams, Res.bind_eq_ok, Res.pure_eq, Res.ok.injEq, Prod.mk.injEq] at hr ⊢
    obtain ⟨y, h1, s, h2, z, h3, h4, rfl⟩ := hr
    refine ⟨y, h1, s, ?_, z, ?_, h4, rfl⟩
    · simpa only [fromU32, agreeAll_length h] using h2
    · have : z = ((.union ps' k vs, z.1.2), z.2) := by rw [← h4]
      rw [this] at h3 ⊢
      exact hd (b := b) (by simp) hv h3
  · intro x n hx
    rfl
  · intro x n w hx
    obtain ⟨ps, k, vs, rfl, hv⟩ := hP true x hx
    simp only [unionCodec]
    refine bind_congr' fun w => ?_
    rw [he (b := true) (by simp) hv]
  · intro x n w hx
    obtain ⟨ps, k, vs, rfl, hv⟩ := hP true x hx
    simp only [unionCodec]
    rw [hs (b := true) (by simp) hv]
  · intro ps n r x n' r' hr hx
    obtain ⟨ps', k, vs, rfl, hv⟩ := hP true x hx
    simp only [unionCodec, Val.withParams] at hr ⊢
    exact hd (b := true) (by simp) hv hr

/-! ## Choices -/

/-- The cases are the same but for the types of their fields. -/
def AgreeCases : List (Bool → Val → Prop) → List CaseOps → List CaseOps → Prop
  | [], [], [] => True
  | Qs, c :: cs, c' :: cs' => c'.labels = c.labels ∧
      (match c.field, c'.field with
        | none, none => AgreeCases Qs cs cs'
        | some f, some f' => ∃ Q Qs', Qs = Q :: Qs' ∧ f'.info = f.info ∧ TypeAgrees Q f.ty f'.ty ∧
            AgreeCases Qs' cs cs'
        | _, _ => False)
  | _, _, _ => False

theorem caseFields_cons (c : CaseOps) (cs : List CaseOps) :
    caseFields (c :: cs) = c.field.toList ++ caseFields cs := by
  unfold caseFields
  cases h : c.field with
  | none => rw [List.filterMap_cons_none h]; rfl
  | some g => rw [List.filterMap_cons_some h]; rfl

theorem agreeCases_fields : ∀ {cs cs' : List CaseOps} {Qs : List (Bool → Val → Prop)}, AgreeCases Qs cs cs' →
    AgreeAll Qs (caseFields cs) (caseFields cs')
  | [], [], [], _ => trivial
  | [], [], _ :: _, h => h.elim
  | [], _ :: _, [], h => h.elim
  | [], _ :: _, _ :: _, h => h.elim
  | _ :: _, [], [], h => h.elim
  | _ :: _, [], _ :: _, h => h.elim
  | c :: cs, c' :: cs', Qs, h => by
    have h : c'.labels = c.labels ∧
      (match c.field, c'.field with
        | none, none => AgreeCases Qs cs cs'
        | some f, some f' => ∃ Q Qs', Qs = Q :: Qs' ∧ f'.info = f.info ∧ TypeAgrees Q f.ty f'.ty ∧
            AgreeCases Qs' cs cs'
        | _, _ => False) := by cases Qs <;> exact h
    obtain ⟨-, hf⟩ := h
    rw [caseFields_cons, caseFields_cons]
    cases h1 : c.field with
    | none => cases h2 : c'.field with
      | none => rw [h1, h2] at hf; exact agreeCases_fields hf
      | some f' => rw [h1, h2] at hf; exact hf.elim
    | some f => cases h2 : c'.field with
      | none => rw [h1, h2] at hf; exact hf.elim
      | some f' =>
        rw [h1, h2] at hf
        obtain ⟨Q, Qs', rfl, hi, ht, hr⟩ := hf
        exact ⟨⟨hi, ht⟩, agreeCases_fields hr⟩

theorem selectCase_agree {sel : Val} : ∀ {cs cs' : List CaseOps} {Qs : List (Bool → Val → Prop)},
    AgreeCases Qs cs cs' → ∀ i,
    (selectCase sel i cs = none ∧ selectCase sel i cs' = none) ∨
    ∃ j Q f f', selectCase sel i cs = some (i + j, f) ∧ selectCase sel i cs' = some (i + j, f') ∧
      Qs[j]? = some Q ∧ (caseFields cs)[j]? = some f ∧ f'.info = f.info ∧ TypeAgrees Q f.ty f'.ty
  | [], [], [], _, _ => .inl ⟨rfl, rfl⟩
  | [], [], _ :: _, h, _ => h.elim
  | [], _ :: _, [], h, _ => h.elim
  | [], _ :: _, _ :: _, h, _ => h.elim
  | _ :: _, [], [], h, _ => h.elim
  | _ :: _, [], _ :: _, h, _ => h.elim
  | c :: cs, c' :: cs', Qs, h, i => by
    have h : c'.labels = c.labels ∧
      (match c.field, c'.field with
        | none, none => AgreeCases Qs cs cs'
        | some f, some f' => ∃ Q Qs', Qs = Q :: Qs' ∧ f'.info = f.info ∧ TypeAgrees Q f.ty f'.ty ∧
            AgreeCases Qs' cs cs'
        | _, _ => False) := by cases Qs <;> exact h
    obtain ⟨hl, hf⟩ := h
    simp only [selectCase, caseFields_cons]
    rw [hl]
    cases h1 : c.field with
    | none => cases h2 : c'.field with
      | none =>
        rw [h1, h2] at hf
        split
        · exact .inl ⟨rfl, rfl⟩
        · simpa using selectCase_agree hf i
      | some f' => rw [h1, h2] at hf; exact hf.elim
    | some f => cases h2 : c'.field with
      | none => rw [h1, h2] at hf; exact hf.elim
      | some f' =>
        rw [h1, h2] at hf
        obtain ⟨Q, Qs', rfl, hi, ht, hr⟩ := hf
        split
        · exact .inr ⟨0, Q, f, f', rfl, rfl, rfl, rfl, hi, ht⟩
        · rcases selectCase_agree hr (i + 1) with h' | ⟨j, Q', g, g', e1, e2, e3, e4, e5, e6⟩
          · exact .inl (by simpa using h')
          · refine .inr ⟨j + 1, Q', g, g', ?_, ?_, by simpa using e3, by simpa using e4, e5, e6⟩
            · simpa [Nat.add_assoc, Nat.add_comm 1 j] using e1
            · simpa [Nat.add_assoc, Nat.add_comm 1 j] using e2

theorem initChoice_agree {ps : List Val} : ∀ {Qs : List (Bool → Val → Prop)} {fs fs' : List FieldOps},
    AgreeAll Qs fs fs' → ∀ {i : Nat} {vs : List Val} {n : Node},
    (∀ j, WithinAt true ps Qs fs vs j) →
    initChoice ps fs' i vs n = initChoice ps fs i vs n
  | [], [], [], _, _, _, _, _ => rfl
  | _ :: _, f :: _, f' :: _, h, i, v :: vs, n, hv => by
    simp only [initChoice]
    rw [fieldInit_agree h.1.1 h.1.2 (hv 0 _ _ _ rfl rfl rfl)]
    exact bind_congr' fun y => initChoice_agree h.2 fun j Q f v h1 h2 h3 => hv (j + 1) Q f v h1 h2 h3
  | _ :: _, f :: _, f' :: _, h, i, [], n, hv => rfl
  | [], [], _ :: _, h, _, _, _, _ => h.elim
  | [], _ :: _, _, h, _, _, _, _ => h.elim
  | _ :: _, [], _, h, _, _, _, _ => h.elim
  | _ :: _, _ :: _, [], h, _, _, _, _ => h.elim

theorem choice_agrees {P : Bool → Val → Prop} {Qs : List (Bool → Val → Prop)} {cs cs' : List CaseOps}
    {params : List Val} {sel : List Val → Val} (h : AgreeCases Qs cs cs')
    (hP : ∀ b v, P b v → ∃ ps vs, v = .obj ps vs ∧
      ∀ j, (b = true ∨ ∃ f, selectCase (sel ps) 0 cs = some (j, f)) → WithinAt b ps Qs (caseFields cs) vs j) :
    CodecAgrees P (choiceCodec cfg params sel cs) (choiceCodec cfg params sel cs') := by
  have hf := agreeCases_fields h
  have he : ∀ {packed b : Bool} (_ : packed = true → b = true) {ps : List Val} {vs : List Val} {n : Node}
      {w : Writer}, (∀ j, (b = true ∨ ∃ f, selectCase (sel ps) 0 cs = some (j, f)) →
        WithinAt b ps Qs (caseFields cs) vs j) →
      encodeChoice packed sel cs' ps vs n w = encodeChoice packed sel cs ps vs n w := by
    intro packed b hb ps vs n w hv
    unfold encodeChoice
    rcases selectCase_agree (sel := sel ps) h 0 with ⟨h1, h2⟩ | ⟨j, Q, f, f', h1, h2, h3, h4, hi, ht⟩
    · rw [h1, h2]
    · rw [Nat.zero_add] at h1 h2
      rw [h1, h2]
      dsimp only
      cases hvs : vs[j]? with
      | none => rfl
      | some v => exact fieldEncode_agree hi ht hb (hv j (.inr ⟨f, h1⟩) Q f v h3 h4 hvs)
  have hs : ∀ {packed b : Bool} (_ : packed = true → b = true) {ps : List Val} {vs : List Val} {n : Node}
      {w : Nat}, (∀ j, (b = true ∨ ∃ f, selectCase (sel ps) 0 cs = some (j, f)) →
        WithinAt b ps Qs (caseFields cs) vs j) →
      bitsizeChoice packed sel cs' ps vs n w = bitsizeChoice packed sel cs ps vs n w := by
    intro packed b hb ps vs n w hv
    unfold bitsizeChoice
    rcases selectCase_agree (sel := sel ps) h 0 with ⟨h1, h2⟩ | ⟨j, Q, f, f', h1, h2, h3, h4, hi, ht⟩
    · rw [h1, h2]
    · rw [Nat.zero_add] at h1 h2
      rw [h1, h2]
      dsimp only
      cases hvs : vs[j]? with
      | none => rfl
      | some v => exact fieldBitsize_agree hi ht hb (hv j (.inr ⟨f, h1⟩) Q f v h3 h4 hvs)
  have hd : ∀ {packed b : Bool} (_ : packed = true → b = true) {ps : List Val}
      {olds vs : List Val} {n n' : Node} {r r' : Reader},
      (∀ j, (b = true ∨ ∃ f, selectCase (sel ps) 0 cs = some (j, f)) →
        WithinAt b ps Qs (caseFields cs) vs j) →
      decodeChoice cfg packed sel cs ps olds n r = .ok ((vs, n'), r') →
      decodeChoice cfg packed sel cs' ps olds n r = .ok ((vs, n'), r') := by
    intro packed b hb ps olds vs n n' r r' hv hr
    unfold decodeChoice at hr ⊢
    rcases selectCase_agree (sel := sel ps) h 0 with ⟨h1, h2⟩ | ⟨j, Q, f, f', h1, h2, h3, h4, hi, ht⟩
    · rw [h1] at hr
      rw [h2]
      exact hr
    · rw [Nat.zero_add] at h1 h2
      rw [h1] at hr
      rw [h2]
      dsimp only at hr ⊢
      cases ho : olds[j]? with
      | none => rw [ho] at hr; cases hr
      | some old =>
        rw [ho] at hr
        simp only [Res.bind_eq_ok, Res.pure_eq, Res.ok.injEq, Prod.mk.injEq] at hr ⊢
        obtain ⟨y, h5, ⟨rfl, h6⟩, rfl⟩ := hr
        refine ⟨y, fieldDecode_agree hi ht hb (hv j (.inr ⟨f, h1⟩) Q f y.1.1 h3 h4 ?_) h5, ⟨rfl, h6⟩, rfl⟩
        obtain ⟨hlt, -⟩ := List.getElem?_eq_some_iff.1 ho
        exact List.getElem?_set_self hlt
  refine ⟨?_, ?_, ?_, ?_, ?_, ?_, ?_, ?_, ?_⟩
  · simp only [choiceCodec, dflts_agree hf]
  · simp only [choiceCodec, contexts_agree hf]
  · intro b x w hx
    obtain ⟨ps, vs, rfl, hv⟩ := hP b x hx
    simp only [choiceCodec]
    rw [he (b := b) (by simp) hv]
  · intro b x w hx
    obtain ⟨ps, vs, rfl, hv⟩ := hP b x hx
    simp only [choiceCodec]
    rw [hs (b := b) (by simp) hv]
  · intro b ps r x r' hr hx
    obtain ⟨ps', vs, rfl, hv⟩ := hP b x hx
    simp only [choiceCodec, Val.withParams, Res.bind_eq_ok, Res.pure_eq, Res.ok.injEq, Prod.mk.injEq,
      Val.obj.injEq] at hr ⊢
    obtain ⟨y, h1, ⟨rfl, rfl⟩, rfl⟩ := hr
    exact ⟨y, hd (b := b) (by simp) hv h1, ⟨rfl, rfl⟩, rfl⟩
  · intro x n hx
    obtain ⟨ps, vs, rfl, hv⟩ := hP true x hx
    exact initChoice_agree hf fun j => hv j (.inl rfl)
  · intro x n w hx
    obtain ⟨ps, vs, rfl, hv⟩ := hP true x hx
    exact he (b := true) (by simp) hv
  · intro x n w hx
    obtain ⟨ps, vs, rfl, hv⟩ := hP true x hx
    simp only [choiceCodec]
    rw [hs (b := true) (by simp) hv]
  · intro ps n r x n' r' hr hx
    obtain ⟨ps', vs, rfl, hv⟩ := hP true x hx
    simp only [choiceCodec, Val.withParams, Res.bind_eq_ok, Res.pure_eq, Res.ok.injEq, Prod.mk.injEq,
      Val.obj.injEq] at hr ⊢
    obtain ⟨y, h1, ⟨⟨rfl, rfl⟩, h2⟩, rfl⟩ := hr
    exact ⟨y, hd (b := true) (by simp) hv h1, ⟨⟨rfl, rfl⟩, h2⟩, rfl⟩

end

end Link

end Zs
