import Verif.Exec

/-!
# Facts on emitted lines: grouping is unique, and execution is sequential
-/

namespace Zs

namespace Emit

/-! ## Grouping -/

/-- What may follow the lines of a tree: nothing, or a line that ends the block around them. -/
def Ends : List Line → Prop
  | [] => True
  | .close :: _ => True
  | .elseLine :: _ => True
  | .armClose :: _ => True
  | _ => False

/-- What may follow the arms of a `match`. -/
def EndsArms : List Line → Prop
  | .close :: _ => True
  | _ => False

mutual
theorem Code.lines_inj : ∀ (a b : Code) (s t : List Line), Ends s → Ends t →
    a.lines ++ s = b.lines ++ t → a = b ∧ s = t
  | .nil, b, s, t, hs, ht, h => by
    cases b <;> simp only [Code.lines, List.nil_append, List.cons_append] at h
    · exact ⟨rfl, h⟩
    all_goals (subst h; simp [Ends] at hs)
  | .stmt x r, b, s, t, hs, ht, h => by
    cases b <;> simp only [Code.lines, List.nil_append, List.cons_append] at h
    · subst h; simp [Ends] at ht
    · rename_i y r'
      simp only [List.cons.injEq, Line.stmt.injEq] at h
      obtain ⟨h1, h2⟩ := Code.lines_inj r r' s t hs ht h.2
      exact ⟨by rw [h.1, h1], h2⟩
    all_goals simp at h
  | .block x p r, b, s, t, hs, ht, h => by
    cases b <;> simp only [Code.lines, List.nil_append, List.cons_append, List.append_assoc] at h
    · subst h; simp [Ends] at ht
    · simp at h
    · rename_i y p' r'
      simp only [List.cons.injEq, Line.opening.injEq] at h
      obtain ⟨h1, h2⟩ := Code.lines_inj p p' _ _ (by simp [Ends]) (by simp [Ends]) h.2
      simp only [List.cons.injEq, true_and] at h2
      obtain ⟨h3, h4⟩ := Code.lines_inj r r' s t hs ht h2
      exact ⟨by rw [h.1, h1, h3], h4⟩
    · rename_i y p' e' r'
      simp only [List.cons.injEq, Line.opening.injEq] at h
      obtain ⟨h1, h2⟩ := Code.lines_inj p p' _ _ (by simp [Ends]) (by simp [Ends]) h.2
      simp at h2
    · simp at h
  | .blockElse x p e r, b, s, t, hs, ht, h => by
    cases b <;> simp only [Code.lines, List.nil_append, List.cons_append, List.append_assoc] at h
    · subst h; simp [Ends] at ht
    · simp at h
    · rename_i y p' r'
      simp only [List.cons.injEq, Line.opening.injEq] at h
      obtain ⟨h1, h2⟩ := Code.lines_inj p p' _ _ (by simp [Ends]) (by simp [Ends]) h.2
      simp at h2
    · rename_i y p' e' r'
      simp only [List.cons.injEq, Line.opening.injEq] at h
      obtain ⟨h1, h2⟩ := Code.lines_inj p p' _ _ (by simp [Ends]) (by simp [Ends]) h.2
      simp only [List.cons.injEq, true_and] at h2
      obtain ⟨h3, h4⟩ := Code.lines_inj e e' _ _ (by simp [Ends]) (by simp [Ends]) h2
      simp only [List.cons.injEq, true_and] at h4
      obtain ⟨h5, h6⟩ := Code.lines_inj r r' s t hs ht h4
      exact ⟨by rw [h.1, h1, h3, h5], h6⟩
    · simp at h
  | .branch x p r, b, s, t, hs, ht, h => by
    cases b <;> simp only [Code.lines, List.nil_append, List.cons_append, List.append_assoc] at h
    · subst h; simp [Ends] at ht
    · simp at h
    · simp at h
    · simp at h
    · rename_i y p' r'
      simp only [List.cons.injEq, Line.matchLine.injEq] at h
      obtain ⟨h1, h2⟩ := Arms.lines_inj p p' _ _ (by simp [EndsArms]) (by simp [EndsArms]) h.2
      simp only [List.cons.injEq, true_and] at h2
      obtain ⟨h3, h4⟩ := Code.lines_inj r r' s t hs ht h2
      exact ⟨by rw [h.1, h1, h3], h4⟩
theorem Arms.lines_inj : ∀ (a b : Arms) (s t : List Line), EndsArms s → EndsArms t →
    a.lines ++ s = b.lines ++ t → a = b ∧ s = t
  | .nil, b, s, t, hs, ht, h => by
    cases b <;> simp only [Arms.lines, List.nil_append, List.cons_append] at h
    · exact ⟨rfl, h⟩
    all_goals (subst h; simp [EndsArms] at hs)
  | .arm l p r, b, s, t, hs, ht, h => by
    cases b <;> simp only [Arms.lines, List.nil_append, List.cons_append, List.append_assoc] at h
    · subst h; simp [EndsArms] at ht
    · rename_i l' p' r'
      simp only [List.cons.injEq, Line.arm.injEq] at h
      obtain ⟨h1, h2⟩ := Code.lines_inj p p' _ _ (by simp [Ends]) (by simp [Ends]) h.2
      simp only [List.cons.injEq, true_and] at h2
      obtain ⟨h3, h4⟩ := Arms.lines_inj r r' s t hs ht h2
      exact ⟨by rw [h.1, h1, h3], h4⟩
    · simp at h
  | .wildcard, b, s, t, hs, ht, h => by
    cases b <;> simp only [Arms.lines, List.nil_append, List.cons_append] at h
    · subst h; simp [EndsArms] at ht
    · simp at h
    · simp only [List.cons.injEq, true_and] at h
      exact ⟨rfl, h⟩
end

/-- Lines group into blocks in at most one way. -/
theorem Code.eq_of_lines {a b : Code} (h : a.lines = b.lines) : a = b :=
  (Code.lines_inj a b [] [] trivial trivial (by rw [h])).1

/-- What lines do is determined by the lines. -/
theorem Executes.unique {α : Type} {cfg : Cfg} {ls : List Line} {core : Core} {view : Core → α}
    {a b : Res α} (ha : Executes cfg ls core view a) (hb : Executes cfg ls core view b) : a = b := by
  obtain ⟨c, hc, rfl⟩ := ha
  obtain ⟨d, hd, rfl⟩ := hb
  rw [Code.eq_of_lines (hc.trans hd.symm)]

/-! ## Sequences -/

/-- One tree after the other. -/
def Code.append : Code → Code → Code
  | .nil, b => b
  | .stmt s r, b => .stmt s (r.append b)
  | .block h p r, b => .block h p (r.append b)
  | .blockElse h p e r, b => .blockElse h p e (r.append b)
  | .branch s a r, b => .branch s a (r.append b)

instance : Append Code := ⟨Code.append⟩

theorem Code.lines_append : ∀ a b : Code, (a ++ b).lines = a.lines ++ b.lines
  | .nil, b => rfl
  | .stmt s r, b => congrArg (Line.stmt s :: ·) (Code.lines_append r b)
  | .block h p r, b => by
    have := Code.lines_append r b
    show Line.opening h :: (p.lines ++ .close :: (r ++ b).lines) = _
    simp [this, Code.lines]
  | .blockElse h p e r, b => by
    have := Code.lines_append r b
    show Line.opening h :: (p.lines ++ .elseLine :: (e.lines ++ .close :: (r ++ b).lines)) = _
    simp [this, Code.lines]
  | .branch s a r, b => by
    have := Code.lines_append r b
    show Line.matchLine s :: (a.lines ++ .close :: (r ++ b).lines) = _
    simp [this, Code.lines]

theorem Code.run_append (cfg : Cfg) : ∀ (a b : Code) (st : St),
    (a ++ b).run cfg st = a.run cfg st >>= b.run cfg
  | .nil, b, st => rfl
  | .stmt s r, b, st => by
    show s.exec cfg st >>= (r ++ b).run cfg = _
    rw [show (r ++ b).run cfg = fun st => r.run cfg st >>= b.run cfg from
      funext (Code.run_append cfg r b)]
    simp [Code.run]
  | .block h p r, b, st => by
    show h.exec (p.run cfg) .ok st >>= (r ++ b).run cfg = _
    rw [show (r ++ b).run cfg = fun st => r.run cfg st >>= b.run cfg from
      funext (Code.run_append cfg r b)]
    simp [Code.run]
  | .blockElse h p e r, b, st => by
    show h.exec (p.run cfg) (e.run cfg) st >>= (r ++ b).run cfg = _
    rw [show (r ++ b).run cfg = fun st => r.run cfg st >>= b.run cfg from
      funext (Code.run_append cfg r b)]
    simp [Code.run]
  | .branch s a r, b, st => by
    show a.run cfg (s.value st) st >>= (r ++ b).run cfg = _
    rw [show (r ++ b).run cfg = fun st => r.run cfg st >>= b.run cfg from
      funext (Code.run_append cfg r b)]
    simp [Code.run]

/-- A tree of one statement. -/
def Code.one (s : Stmt) : Code := .stmt s .nil

theorem Code.lines_one (s : Stmt) : (Code.one s).lines = [.stmt s] := rfl

theorem Code.run_one (cfg : Cfg) (s : Stmt) (st : St) :
    (Code.one s).run cfg st = s.exec cfg st := by
  simp only [Code.one, Code.run]
  cases s.exec cfg st <;> rfl

/-- A tree of one block. -/
def Code.blk (h : Head) (body : Code) : Code := .block h body .nil

theorem Code.lines_blk (h : Head) (body : Code) :
    (Code.blk h body).lines = .opening h :: (body.lines ++ [.close]) := by
  simp [Code.blk, Code.lines]

theorem Code.run_blk (cfg : Cfg) (h : Head) (body : Code) (st : St) :
    (Code.blk h body).run cfg st = h.exec (body.run cfg) .ok st := by
  simp only [Code.blk, Code.run]
  cases h.exec (body.run cfg) .ok st <;> rfl

/-- A tree of one block with `else`. -/
def Code.ite (h : Head) (body els : Code) : Code := .blockElse h body els .nil

theorem Code.lines_ite (h : Head) (body els : Code) :
    (Code.ite h body els).lines
      = .opening h :: (body.lines ++ .elseLine :: (els.lines ++ [.close])) := by
  simp [Code.ite, Code.lines]

theorem Code.run_ite (cfg : Cfg) (h : Head) (body els : Code) (st : St) :
    (Code.ite h body els).run cfg st = h.exec (body.run cfg) (els.run cfg) st := by
  simp only [Code.ite, Code.run]
  cases h.exec (body.run cfg) (els.run cfg) st <;> rfl

/-- A tree that is there only under a condition. -/
def Code.when (b : Bool) (c : Code) : Code := if b then c else .nil

/-- The lines of statements only. -/
def Code.ofStmts : List Stmt → Code
  | [] => .nil
  | s :: ss => .stmt s (Code.ofStmts ss)

theorem Code.lines_ofStmts : ∀ ss, (Code.ofStmts ss).lines = ss.map Line.stmt
  | [] => rfl
  | s :: ss => congrArg (Line.stmt s :: ·) (Code.lines_ofStmts ss)

end Emit

end Zs
