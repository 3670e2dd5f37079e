import Verif.FileFields

/-!
# Lemmas: offsets of fields
-/

namespace Zs.Src

open Spec

/-! ## The parts of a field -/

theorem behind_first (i c k : Option Exp) (rest : List Token) :
    ∃ t us, writtenBehind (.other "=") i ++ (writtenBehind (.other "if") c ++ (writtenBehind .colon k ++ .other ";" :: rest)) =
      t :: us ∧ (t = .colon ∨ ∃ w, t = .other w) ∧
      (t = .colon → ∃ e, k = some e ∧ us = written e ++ .other ";" :: rest) := by
  cases i with
  | some e => exact ⟨_, _, rfl, .inr ⟨_, rfl⟩, nofun⟩
  | none =>
    cases c with
    | some e => exact ⟨_, _, rfl, .inr ⟨_, rfl⟩, nofun⟩
    | none =>
      cases k with
      | some e => exact ⟨_, _, rfl, .inl rfl, fun _ => ⟨e, rfl, rfl⟩⟩
      | none => exact ⟨_, _, rfl, .inr ⟨_, rfl⟩, nofun⟩

theorem writtenBody_eq (f : StructField) (rest : List Token) : writtenBody f ++ rest =
    writtenFlag "extend" f.extended ++ (writtenFlag "optional" f.optional ++ (writtenTypeId f.typeId ++
      (writtenBehind (.other "=") f.initializer ++ (writtenBehind (.other "if") f.clause ++
        (writtenBehind .colon f.constraint ++ .other ";" :: rest))))) := by
  simp [writtenBody]

theorem typeId_not_other {f : FieldTypeId} (hf : TypeIdOk true f) {w : String}
    (hw : w ∉ typeWords ∧ w ≠ "packed" ∧ w ≠ "implicit") (rest us : List Token) : writtenTypeId f ++ rest ≠ .other w :: us := by
  obtain ⟨p, i, ty, x, a⟩ := f
  have h1 : TypeOk ty.type := hf.1.1
  have h2 : ∀ r us, writtenInst ty ++ r ≠ .other w :: us := by
    intro r us; rw [writtenInst, List.append_assoc]; exact type_not_other h1 hw.1 _ _
  simp only [writtenTypeId, List.append_assoc]
  cases p with
  | true =>
    simp only [writtenFlag, if_true, List.cons_append, List.nil_append]
    intro h
    injection h with h _
    injection h with h
    exact hw.2.1 h.symm
  | false =>
    cases i with
    | true =>
      simp only [writtenFlag, Bool.false_eq_true, if_true, if_false, List.cons_append, List.nil_append]
      intro h
      injection h with h _
      injection h with h
      exact hw.2.2 h.symm
    | false =>
      simp only [writtenFlag, Bool.false_eq_true, if_false, List.nil_append]
      exact h2 _ _

theorem fieldBody_written (f : StructField) (hf : FieldOk true f) (rest : List Token) :
    fieldBody f.align f.offset (writtenBody f ++ rest) = some (f, rest) := by
  obtain ⟨al, off, ext, opt, ti, i, c, k⟩ := f
  obtain ⟨_, _, h1, h2, h3, h4, _⟩ := hf
  simp only at h1 h2 h3 h4
  rw [writtenBody_eq]
  simp only
  obtain ⟨t, us, ht, ht1, _⟩ := behind_first i c k rest
  have g1 : ∀ r us, writtenTypeId ti ++ r ≠ .other "optional" :: us := fun r us => typeId_not_other h1 (by decide) r us
  have g2 : ∀ r us, writtenFlag "optional" opt ++ (writtenTypeId ti ++ r) ≠ .other "extend" :: us := by
    intro r us
    cases opt with
    | true => simp [writtenFlag]
    | false =>
      simp only [writtenFlag, Bool.false_eq_true, if_false, List.nil_append]
      exact typeId_not_other h1 (by decide) r us
  unfold fieldBody
  rw [readFlag_written "extend" ext _ (g2 _), readFlag_written "optional" opt _ (g1 _), ht]
  simp only
  rw [fieldTypeId_written ti h1 t us ht1, ← ht]
  simp only [Option.bind_some]
  have hk : NoOperator (writtenBehind .colon k ++ .other ";" :: rest) ∧
      (∀ us, writtenBehind .colon k ++ .other ";" :: rest ≠ .other "if" :: us) := by cases k <;> simp [writtenBehind, NoOperator, Token.NoOperator]
  have hc : NoOperator (writtenBehind (.other "if") c ++ (writtenBehind .colon k ++ .other ";" :: rest)) ∧
      (∀ us, writtenBehind (.other "if") c ++ (writtenBehind .colon k ++ .other ";" :: rest) ≠ .other "=" :: us) := by
    cases c <;> cases k <;> simp [writtenBehind, NoOperator, Token.NoOperator]
  rw [expressionBehind_written _ i _ h2 hc.1 hc.2]
  simp only [Option.bind_some]
  rw [expressionBehind_written _ c _ h3 hk.1 hk.2]
  simp only [Option.bind_some]
  rw [expressionBehind_written _ k _ h4 (by trivial) (by simp)]
  simp

/-! ## What could be an offset -/

/-- `a.b.c` -/
def chain (x : String) (xs : List String) : Exp := xs.foldl .dot (.id x)

theorem chain_written (x : String) (xs : List String) : written (chain x xs) = .id x :: dotted xs := by
  have key : ∀ (e : Exp), written (xs.foldl .dot e) = written e ++ dotted xs := by
    induction xs with
    | nil => intro e; simp [dotted]
    | cons y ys ih => intro e; rw [List.foldl_cons, ih]; simp [written, dotted]
  exact key (.id x)

theorem chain_bracketed (x : String) (xs : List String) : Bracketed (chain x xs) := by
  have key : ∀ (e : Exp), looseness e ≤ 1 → Bracketed e → Bracketed (xs.foldl .dot e) := by
    induction xs with
    | nil => intro e _ h; exact h
    | cons y ys ih => intro e h1 h2; exact ih _ (by simp [looseness]) ⟨h1, h2⟩
  exact key (.id x) (by simp [looseness]) trivial

theorem chain_read (x : String) (xs : List String) (rest : List Token) (h : nextPrec rest = none) :
    parseExpression (.id x :: (dotted xs ++ rest)) = some (chain x xs, rest) := by
  have := (written_parses (chain x xs) (chain_bracketed x xs) 0 rest (chain x xs, rest) (by omega) (stops_of_none h)
    (.stop (stops_of_none h))).enough (Nat.le_refl _)
  rw [chain_written] at this
  exact this

theorem moreIds_sound (us : List Token) : us = dotted (moreIds us).1 ++ (moreIds us).2 := by
  fun_induction moreIds us with
  | case1 x ts ih =>
    simp only [dotted, List.flatMap_cons, List.cons_append, List.nil_append] at ih ⊢
    rw [← ih]
  | case2 ts h => rfl

/-- The token is not `;`. -/
def NoEnd' (t : Token) : Prop := t ≠ .other ";"

theorem dotted_no_end (xs : List String) : ∀ t ∈ dotted xs, NoEnd' t := by
  intro t ht
  simp only [dotted, List.mem_flatMap, List.mem_cons, List.not_mem_nil, or_false] at ht
  obtain ⟨x, _, rfl | rfl⟩ := ht <;> simp [NoEnd']

theorem scan_no_other {l : List Token} {n k : Nat} (h : scan (.open n) l = .open k) (w : String) : .other w ∉ l := by
  intro hm
  obtain ⟨a, b, rfl⟩ := List.append_of_mem hm
  rw [scan_append] at h
  cases ha : scan (.open n) a with
  | «open» j => rw [ha] at h; simp [scan, scanToken, scan_blocked] at h
  | under => rw [ha, scan_under] at h; cases h
  | blocked => rw [ha, scan_blocked] at h; cases h

theorem written_no_end (e : Exp) : ∀ t ∈ written e, NoEnd' t := by
  rintro t ht rfl
  exact scan_no_other (scan_written e 0) _ ht

/-- What is in front of the first `;`. -/
theorem in_front {W rest A B : List Token} {s : Token} (h : W ++ .other ";" :: rest = A ++ s :: B)
    (hA : ∀ t ∈ A, NoEnd' t) (hs : NoEnd' s) : s ∈ W := by
  rcases List.append_eq_append_iff.1 h with ⟨x, hx, hy⟩ | ⟨x, hx, hy⟩
  · cases x with
    | nil =>
      simp only [List.nil_append, List.cons.injEq] at hy
      exact absurd hy.1.symm hs
    | cons y x =>
      simp only [List.cons_append, List.cons.injEq] at hy
      exact absurd hy.1.symm (hA y (by rw [hx]; simp))
  · cases x with
    | nil =>
      simp only [List.nil_append, List.cons.injEq] at hy
      exact absurd hy.1 hs
    | cons y x =>
      simp only [List.cons_append, List.cons.injEq] at hy
      rw [hx, hy.1]; simp

theorem typeWords_no_end {w : String} (h : w ∈ typeWords) : NoEnd' (.other w) := by
  intro he
  injection he with he
  subst he
  exact absurd h (by decide)

theorem types_sound (n : Nat) :
    (∀ ts t rest, typeReference n ts = some (t, rest) → ∃ A, ts = A ++ rest ∧ ∀ s ∈ A, NoEnd' s) ∧
    (∀ ts l rest, templateArguments n ts = some (l, rest) → ∃ A, ts = A ++ .gt :: rest ∧ ∀ s ∈ A, NoEnd' s) := by
  induction n with
  | zero => exact ⟨fun _ _ _ h => by simp [typeReference] at h, fun _ _ _ h => by simp [templateArguments] at h⟩
  | succ n ih =>
    constructor
    · intro ts t rest h
      unfold typeReference at h
      split at h
      · next w us =>
        split at h
        · next hw =>
          have hw' := typeWords_no_end hw
          split at h
          · next x vs =>
            split at h
            · cases h
              refine ⟨[.other w, .colon, .lit .decimal x], rfl, ?_⟩
              intro s hs
              simp only [List.mem_cons, List.not_mem_nil, or_false] at hs
              rcases hs with rfl | rfl | rfl
              · exact hw'
              · simp [NoEnd']
              · simp [NoEnd']
            · cases h
              exact ⟨[.other w], rfl, by simpa using hw'⟩
          · cases h
            exact ⟨[.other w], rfl, by simpa using hw'⟩
        · cases h
      · next x us =>
        have e := moreIds_sound us
        generalize moreIds us = m at e h
        have pre : ∀ s ∈ Token.id x :: dotted m.1, NoEnd' s := by
          intro s hs
          rcases List.mem_cons.1 hs with rfl | hs
          · simp [NoEnd']
          · exact dotted_no_end _ s hs
        split at h
        · next vs hv =>
          rw [hv] at e
          split at h
          · next r hr =>
            cases h
            obtain ⟨A, h1, h2⟩ := ih.2 _ _ _ hr
            refine ⟨.id x :: dotted m.1 ++ .lt :: (A ++ [.gt]), by rw [e]; simp [h1], ?_⟩
            intro s hs
            rcases List.mem_append.1 hs with hs | hs
            · exact pre s hs
            · simp only [List.mem_cons, List.mem_append, List.not_mem_nil, or_false] at hs
              rcases hs with rfl | hs | rfl
              · simp [NoEnd']
              · exact h2 s hs
              · simp [NoEnd']
          · cases h
            exact ⟨.id x :: dotted m.1, by rw [e]; simp, pre⟩
        · cases h
          exact ⟨.id x :: dotted m.1, by rw [e]; rfl, pre⟩
      · cases h
    · intro ts l rest h
      unfold templateArguments at h
      obtain ⟨⟨t, r⟩, ht, h⟩ := Option.bind_eq_some_iff.1 h
      obtain ⟨A, hA, hA1⟩ := ih.1 _ _ _ ht
      split at h
      · next us hr =>
        obtain ⟨⟨l', r'⟩, hl, h⟩ := Option.map_eq_some_iff.1 h
        cases h
        obtain ⟨B, hB, hB1⟩ := ih.2 _ _ _ hl
        simp only at hr
        refine ⟨A ++ .comma :: B, by rw [hA, hr, hB]; simp, ?_⟩
        intro s hs
        simp only [List.mem_append, List.mem_cons] at hs
        rcases hs with hs | rfl | hs
        · exact hA1 s hs
        · simp [NoEnd']
        · exact hB1 s hs
      · next us hr =>
        cases h
        simp only at hr
        exact ⟨A, by rw [hA, hr], hA1⟩
      · cases h

theorem lengthArgument_sound {ts rest : List Token} {e : Exp} (h : lengthArgument ts = some (e, rest)) :
    ts = written e ++ .gt :: rest := by
  unfold lengthArgument at h
  obtain ⟨i, _, hi⟩ := List.exists_of_findSome?_eq_some h
  split at hi
  · next us hd =>
    split at hi
    · next e' hp =>
      cases hi
      obtain ⟨ht, _⟩ := C79_only _ _ _ hp
      rw [List.append_nil] at ht
      rw [← ht, ← hd, List.take_append_drop]
    · cases hi
  · cases hi

theorem nextPrec_paren {ws : List Token} (h : ∀ us, ws ≠ .rparen :: us) : nextPrec (.lparen :: ws) = none := by
  unfold nextPrec
  split
  · next e => cases e; exact absurd rfl (h _)
  · next e => cases e
  · next e => cases e
  · next e => cases e
  · rfl

theorem readCommas_paren (n : Nat) (us : List Token) : readCommas typeArgument n (.rparen :: us) = none := by
  cases n with
  | zero => rfl
  | succ n =>
    have h : typeArgument (.rparen :: us) = none := by
      rw [typeArgument_expr (by simp)]
      cases hp : parseExpression (.rparen :: us) with
      | none => rfl
      | some r =>
        obtain ⟨h, _⟩ := C79_only _ r.1 r.2 hp
        obtain ⟨t, vs, h1, h2, _⟩ := written_start r.1
        rw [h1] at h
        simp only [List.cons_append, List.cons.injEq] at h
        exact absurd h.1.symm h2
    rw [readCommas, h]
    rfl

theorem no_type_name (k : Exp) (hk : Bracketed k) (ha : NoAngles k) (rest : List Token) (i : Inst) (y : String) (r : List Token) :
    typeInstantiation (written k ++ .other ";" :: rest) ≠ some (i, .id y :: r) := by
  intro h
  have hparse := C79_reads k hk (.other ";" :: rest) trivial
  generalize hts : written k ++ .other ";" :: rest = ts at h hparse
  unfold typeInstantiation at h
  obtain ⟨⟨t, r1⟩, ht, h⟩ := Option.bind_eq_some_iff.1 h
  obtain ⟨⟨a, r2⟩, ha1, h⟩ := Option.map_eq_some_iff.1 h
  cases h
  simp only at ha1
  have hno : ∀ xs x vs, ts = .id x :: (dotted xs ++ vs) → nextPrec vs = none → vs.head? ≠ some (.other ";") → False := by
    intro xs x vs e hn hne
    rw [e, chain_read x xs vs hn] at hparse
    cases hparse
    exact hne rfl
  have hangles : ∀ A ws, ts = A ++ .lt :: ws → (∀ s ∈ A, NoEnd' s) → ∀ B us, ws = B ++ .gt :: us →
      (∀ s ∈ B, NoEnd' s) → False := by
    intro A ws e hA B us e2 hB
    rw [← hts] at e
    have h1 := in_front e hA (by simp [NoEnd'])
    rw [e2] at e
    have h2 := in_front (A := A ++ .lt :: B) (s := .gt) (B := us) (by rw [e]; simp) (by
      intro s hs
      simp only [List.mem_append, List.mem_cons] at hs
      rcases hs with hs | rfl | hs
      · exact hA s hs
      · simp [NoEnd']
      · exact hB s hs) (by simp [NoEnd'])
    rcases ha with ha | ha
    · exact ha h1
    · exact ha h2
  unfold readType at ht
  generalize 2 * ts.length = n at ht
  cases n with
  | zero => simp [typeReference] at ht
  | succ n =>
    unfold typeReference at ht
    split at ht
    · next w us => exact written_not_other k _ _ _ hts
    · next x us =>
      have e := moreIds_sound us
      generalize moreIds us = m at e ht
      have pre : ∀ s ∈ Token.id x :: dotted m.1, NoEnd' s := by
        intro s hs
        rcases List.mem_cons.1 hs with rfl | hs
        · simp [NoEnd']
        · exact dotted_no_end _ s hs
      split at ht
      · next vs hv =>
        rw [hv] at e
        have e' : Token.id x :: us = (Token.id x :: dotted m.1) ++ .lt :: vs := by rw [e]; rfl
        split at ht
        · next q hq =>
          obtain ⟨A, h1, h2⟩ := (types_sound _).2 _ _ _ hq
          exact hangles _ _ e' pre A _ h1 h2
        · cases ht
          simp only [readArgs] at ha1
          obtain ⟨⟨e1, r3⟩, hl, _⟩ := Option.map_eq_some_iff.1 ha1
          exact hangles _ _ e' pre _ _ (lengthArgument_sound hl) (written_no_end e1)
      · next hv =>
        obtain ⟨m1, m2⟩ := m
        cases ht
        have e' : Token.id x :: us = Token.id x :: (dotted m1 ++ m2) := by rw [e]
        unfold readArgs at ha1
        split at ha1
        · next ws hws =>
          simp only at hws
          subst hws
          obtain ⟨c, hc, _⟩ := Option.bind_eq_some_iff.1 ha1
          have hp : ∀ us, ws ≠ .rparen :: us := by
            rintro us rfl
            rw [readCommas_paren] at hc
            cases hc
          exact hno _ _ _ e' (nextPrec_paren hp) (by simp)
        · next ws hws => exact hv ws hws
        · cases ha1
          exact hno _ _ _ e' rfl (by simp)
    · cases ht

theorem readFlag_no {w : String} {ts : List Token} (h : ∀ us, ts ≠ .other w :: us) : readFlag w ts = (false, ts) :=
  readFlag_written w false ts h

theorem no_body (k : Exp) (hk : Bracketed k) (ha : NoAngles k) (rest : List Token) (a o : Option Exp) :
    fieldBody a o (written k ++ .other ";" :: rest) = none := by
  have h : fieldTypeId (written k ++ .other ";" :: rest) = none := by
    unfold fieldTypeId
    rw [readFlag_no (written_not_other k _ _), readFlag_no (written_not_other k _ _)]
    simp only
    cases ht : typeInstantiation (written k ++ .other ";" :: rest) with
    | none => rfl
    | some r =>
      obtain ⟨i, r⟩ := r
      simp only [Option.bind_some]
      unfold readId
      split
      · exact absurd ht (no_type_name k hk ha rest i _ _)
      · rfl
  unfold fieldBody
  rw [readFlag_no (written_not_other k _ _), readFlag_no (written_not_other k _ _)]
  simp only [h, Option.bind_none]

theorem flag_cons (w : String) (b : Bool) (l : List Token) :
    (b = true ∧ writtenFlag w b ++ l = .other w :: l) ∨ writtenFlag w b ++ l = l := by
  cases b
  · exact .inr rfl
  · exact .inl ⟨rfl, rfl⟩

theorem no_offset (f : StructField) (hf : FieldOk true f) (hoff : f.offset = none) (rest : List Token) (a : Option Exp) :
    ((parseExpression (writtenBody f ++ rest)).bind fun o => (matchToken .colon o.2).bind fun us =>
      fieldBody a (some o.1) us) = none := by
  cases hp : parseExpression (writtenBody f ++ rest) with
  | none => rfl
  | some r =>
    obtain ⟨o, r⟩ := r
    simp only [Option.bind_some]
    cases hm : matchToken .colon r with
    | none => rfl
    | some us =>
      rw [matchToken_some] at hm
      subst hm
      simp only [Option.bind_some]
      obtain ⟨h, _⟩ := C79_only _ _ _ hp
      obtain ⟨al, off, ext, opt, ⟨pk, im, ⟨ty, ar⟩, x, arr⟩, i, c, k⟩ := f
      obtain ⟨_, _, h1, h2, h3, h4, h5⟩ := hf
      simp only at h1 h2 h3 h4 h5 hoff
      have hinst := h1.1
      rw [writtenBody_eq] at h hp
      simp only [writtenTypeId, List.append_assoc] at h hp
      rcases flag_cons "extend" ext (writtenFlag "optional" opt ++ (writtenFlag "packed" pk ++
          (writtenFlag "implicit" im ++ (writtenInst ⟨ty, ar⟩ ++ ([Token.id x] ++ (writtenArray arr ++
          (writtenBehind (.other "=") i ++ (writtenBehind (.other "if") c ++ (writtenBehind .colon k ++ .other ";" :: rest))))))))) with
        ⟨_, e⟩ | e
      · rw [e] at h; exact absurd h.symm (written_not_other _ _ _ _)
      rw [e] at h hp; clear e
      rcases flag_cons "optional" opt (writtenFlag "packed" pk ++
          (writtenFlag "implicit" im ++ (writtenInst ⟨ty, ar⟩ ++ ([Token.id x] ++ (writtenArray arr ++
          (writtenBehind (.other "=") i ++ (writtenBehind (.other "if") c ++ (writtenBehind .colon k ++ .other ";" :: rest)))))))) with
        ⟨_, e⟩ | e
      · rw [e] at h; exact absurd h.symm (written_not_other _ _ _ _)
      rw [e] at h hp; clear e
      rcases flag_cons "packed" pk
          (writtenFlag "implicit" im ++ (writtenInst ⟨ty, ar⟩ ++ ([Token.id x] ++ (writtenArray arr ++
          (writtenBehind (.other "=") i ++ (writtenBehind (.other "if") c ++ (writtenBehind .colon k ++ .other ";" :: rest))))))) with
        ⟨_, e⟩ | e
      · rw [e] at h; exact absurd h.symm (written_not_other _ _ _ _)
      rw [e] at h hp; clear e
      rcases flag_cons "implicit" im
          (writtenInst ⟨ty, ar⟩ ++ ([Token.id x] ++ (writtenArray arr ++
          (writtenBehind (.other "=") i ++ (writtenBehind (.other "if") c ++ (writtenBehind .colon k ++ .other ";" :: rest)))))) with
        ⟨_, e⟩ | e
      · rw [e] at h; exact absurd h.symm (written_not_other _ _ _ _)
      rw [e] at h hp; clear e
      obtain ⟨t, us', ht, ht1, ht2⟩ := behind_first i c k rest
      rw [ht] at h hp
      have hN : Closed (writtenInst ⟨ty, ar⟩ ++ ([.id x] ++ writtenArray arr)) :=
        ((Closed.type ty).append (Closed.args ar)).append (Closed.append (a := [.id x]) (fun _ => .inl rfl) (Closed.array arr))
      obtain ⟨ho, rfl, rfl⟩ := colon_behind (o := o) (us := us) (us' := us') (t := t) hN ht1 (by rw [← h]; simp)
      obtain ⟨e, rfl, rfl⟩ := ht2 rfl
      by_cases hT : Templated ty
      · exact no_body e (h4 e rfl) (h5 trivial hoff hT e rfl) rest a (some o)
      · exfalso
        match ty with
        | .builtin w => exact written_not_other o [] _ _ (by rw [ho, List.append_nil]; rfl)
        | .fixedBits s n => exact written_not_other o [] _ _ (by rw [ho, List.append_nil]; rfl)
        | .named y ys (b :: bs) => exact hT trivial
        | .named y ys [] =>
          have hs : written o ++ .colon :: (written e ++ .other ";" :: rest) =
              .id y :: (dotted ys ++ (writtenArgs ar ++ .id x :: (writtenArray arr ++ .colon :: (written e ++ .other ";" :: rest)))) := by
            rw [ho]; simp [writtenInst, writtenType]
          have hp' : parseExpression (.id y :: (dotted ys ++ (writtenArgs ar ++ .id x :: (writtenArray arr ++ .colon :: (written e ++ .other ";" :: rest)))))
              = some (o, .colon :: (written e ++ .other ";" :: rest)) := by
            rw [← hs]
            rw [h] at hp; exact hp
          have hn : nextPrec (writtenArgs ar ++ .id x :: (writtenArray arr ++ .colon :: (written e ++ .other ";" :: rest))) = none ∧
              ∀ us, writtenArgs ar ++ .id x :: (writtenArray arr ++ .colon :: (written e ++ .other ";" :: rest)) ≠ .colon :: us := by
            cases ar with
            | none => exact ⟨rfl, by simp [writtenArgs]⟩
            | length e => obtain ⟨_, hw⟩ := hinst.2; obtain ⟨_, hw⟩ := hw rfl; cases hw
            | args g gs =>
              simp only [writtenArgs, List.append_assoc, List.cons_append, List.nil_append]
              refine ⟨nextPrec_paren ?_, by simp⟩
              intro us hus
              have hg : ∃ v vs, writtenArg g = v :: vs ∧ v ≠ .rparen := by
                cases g with
                | explicit z => exact ⟨_, _, rfl, by simp⟩
                | expr e => obtain ⟨v, vs, h1, h2, _⟩ := written_start e; exact ⟨v, vs, h1, h2⟩
              obtain ⟨v, vs, hv, hv1⟩ := hg
              cases gs with
              | nil =>
                simp only [List.map_nil, separated, hv, List.cons_append, List.cons.injEq] at hus
                exact hv1 hus.1
              | cons g2 gs =>
                simp only [List.map_cons, separated, hv, List.cons_append, List.cons.injEq] at hus
                exact hv1 hus.1
          rw [chain_read y ys _ hn.1] at hp'
          simp only [Option.some.injEq, Prod.mk.injEq] at hp'
          exact hn.2 _ hp'.2

theorem fieldBehindAlign_written (f : StructField) (hf : FieldOk true f) (rest : List Token) :
    fieldBehindAlign f.align (writtenOffset f.offset ++ (writtenBody f ++ rest)) =
      some (f, rest) := by
  unfold fieldBehindAlign
  cases ho : f.offset with
  | none =>
    simp only [writtenOffset, List.nil_append]
    rw [no_offset f hf ho rest f.align]
    simp only
    rw [← ho]
    exact fieldBody_written f hf rest
  | some e =>
    simp only [writtenOffset, List.append_assoc, List.cons_append, List.nil_append]
    rw [C79_reads e (hf.2.1 e ho) _ (by trivial)]
    simp only [Option.bind_some, matchToken_self]
    rw [← ho, fieldBody_written f hf rest]

theorem body_not_align (f : StructField) (hf : FieldOk true f) (rest us : List Token) : writtenBody f ++ rest ≠ .other "align" :: us := by
  rw [writtenBody_eq]
  rcases flag_cons "extend" f.extended (writtenFlag "optional" f.optional ++ (writtenTypeId f.typeId ++
      (writtenBehind (.other "=") f.initializer ++ (writtenBehind (.other "if") f.clause ++
        (writtenBehind .colon f.constraint ++ .other ";" :: rest))))) with ⟨_, e⟩ | e
  · rw [e]; simp
  rw [e]
  rcases flag_cons "optional" f.optional (writtenTypeId f.typeId ++
      (writtenBehind (.other "=") f.initializer ++ (writtenBehind (.other "if") f.clause ++
        (writtenBehind .colon f.constraint ++ .other ";" :: rest)))) with ⟨_, e⟩ | e
  · rw [e]; simp
  rw [e]
  exact typeId_not_other hf.2.2.1 (by decide) _ _

theorem structureField_written (f : StructField) (hf : FieldOk true f) (rest : List Token) :
    structureFieldDefinition (writtenField f ++ rest) = some (f, rest) := by
  have h := fieldBehindAlign_written f hf rest
  unfold writtenField
  cases ha : f.align with
  | none =>
    rw [ha] at h
    simp only [writtenAlign, List.nil_append, List.append_assoc] at h ⊢
    unfold structureFieldDefinition
    split
    · next hx =>
      exfalso
      cases ho : f.offset with
      | none => rw [ho] at hx; exact body_not_align f hf rest _ hx
      | some e =>
        rw [ho] at hx
        simp only [writtenOffset, List.append_assoc] at hx
        exact written_not_other e _ _ _ hx
    · exact h
  | some e =>
    rw [ha] at h
    simp only [writtenAlign, List.append_assoc, List.cons_append, List.nil_append]
    unfold structureFieldDefinition
    simp only [matchToken_self, Option.bind_some]
    rw [C79_reads e (hf.1 e ha) _ (by trivial)]
    simp only [matchToken_self, Option.bind_some]
    exact h

end Zs.Src
