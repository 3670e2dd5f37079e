import Verif.ExprText

/-!
# Lemmas about the grouping of the text of expressions
-/

namespace Zs

section Parser

variable {F : Type}

/-- Nothing that belongs to the operand before it. -/
def NoPostfix : List (Tok F) → Prop
  | .dot _ :: _ | .lpar :: _ | .lbrack :: _ => False
  | _ => True

/-- What may follow an expression of precedence `L` without changing how it is read; `ec`: the expression
ends with `as T`. -/
def Follow (L : Nat) (ec : Bool) : List (Tok F) → Prop
  | [] => True
  | .op o :: _ => o.prec ≤ L ∧ (o.prec = 4 → L ≠ 4) ∧
      (ec = true → o ≠ .cmp .lt ∧ o ≠ .bit .shl)
  | .rpar :: _ | .rbrack :: _ | .lbrace :: _ | .rbrace :: _ | .comma :: _ => True
  | _ => False

/-- Operands with what is behind them. -/
def ReadsPost (ts : List (Tok F)) (t : RExpr F) : Prop :=
  ∀ rest b, ∃ n, ∀ m, n ≤ m → ∃ k, b ≤ k ∧ rUnary m (ts ++ rest) = rPost k t rest

/-- Operands with unary operators. -/
def ReadsUnary (ts : List (Tok F)) (t : RExpr F) : Prop :=
  ∀ rest, NoPostfix rest → ∃ n, ∀ m, n ≤ m → rUnary m (ts ++ rest) = some (t, rest)

/-- Expressions of precedence `L`. -/
def ReadsLevel (L : Nat) (ec : Bool) (ts : List (Tok F)) (t : RExpr F) : Prop :=
  ∀ rest min, min ≤ L → Follow L ec rest →
    ∀ b, ∃ n, ∀ m, n ≤ m → ∃ k, b ≤ k ∧ rExpr m min (ts ++ rest) = rLoop k min t rest

/-- The text `ts` is read as `t`, which has precedence `L`. -/
structure Good (ts : List (Tok F)) (t : RExpr F) (L : Nat) (ec : Bool) : Prop where
  level : ReadsLevel L ec ts t
  unary : 12 ≤ L → ReadsUnary ts t
  post : 13 ≤ L → ReadsPost ts t

theorem rLoop_stops (n min : Nat) (t : RExpr F) (rest : List (Tok F)) (L : Nat) (ec : Bool)
    (hn : 1 ≤ n) (hf : Follow L ec rest) (hL : ∀ o r, rest = .op o :: r → o.prec < min) :
    rLoop n min t rest = some (t, rest) := by
  obtain ⟨n, rfl⟩ : ∃ k, n = k + 1 := ⟨n - 1, by omega⟩
  cases rest with
  | nil => rw [rLoop] <;> simp
  | cons s r =>
    cases s with
    | op o =>
      have := hL o r rfl
      rw [rLoop, if_neg (by omega)]
    | as ty => exact hf.elim
    | _ => rw [rLoop] <;> simp

theorem rPost_stops (n : Nat) (t : RExpr F) (rest : List (Tok F)) (hn : 1 ≤ n) (h : NoPostfix rest) :
    rPost n t rest = some (t, rest) := by
  obtain ⟨n, rfl⟩ : ∃ k, n = k + 1 := ⟨n - 1, by omega⟩
  cases rest with
  | nil => rw [rPost] <;> simp
  | cons s r =>
    cases s with
    | dot name => exact h.elim
    | lpar => exact h.elim
    | lbrack => exact h.elim
    | _ => rw [rPost] <;> simp

theorem Follow.noPostfix {L : Nat} {ec : Bool} {rest : List (Tok F)} (h : Follow L ec rest) :
    NoPostfix rest := by
  cases rest with
  | nil => trivial
  | cons s r => cases s <;> first | trivial | exact h.elim

theorem ReadsPost.unary {ts : List (Tok F)} {t : RExpr F} (h : ReadsPost ts t) : ReadsUnary ts t := by
  intro rest hr
  obtain ⟨n, hn⟩ := h rest 1
  refine ⟨n, fun m hm => ?_⟩
  obtain ⟨k, hk, he⟩ := hn m hm
  rw [he, rPost_stops k t rest hk hr]

theorem ReadsUnary.readsLevel {ts : List (Tok F)} {t : RExpr F} (h : ReadsUnary ts t) (L : Nat)
    (ec : Bool) : ReadsLevel L ec ts t := by
  intro rest min _ hf b
  obtain ⟨n, hn⟩ := h rest hf.noPostfix
  refine ⟨n + b + 1, fun m hm => ⟨m - 1, by omega, ?_⟩⟩
  obtain ⟨m, rfl⟩ : ∃ k, m = k + 1 := ⟨m - 1, by omega⟩
  rw [rExpr, hn m (by omega)]
  rfl

theorem ReadsPost.good {ts : List (Tok F)} {t : RExpr F} (h : ReadsPost ts t) (L : Nat) (ec : Bool) :
    Good ts t L ec :=
  ⟨h.unary.readsLevel L ec, fun _ => h.unary, fun _ => h⟩

theorem ReadsUnary.good {ts : List (Tok F)} {t : RExpr F} (h : ReadsUnary ts t) (L : Nat) (ec : Bool)
    (hL : L ≤ 12) : Good ts t L ec :=
  ⟨h.readsLevel L ec, fun _ => h, fun h => by omega⟩

/-- An expression up to a closing token. -/
def Closing : List (Tok F) → Prop
  | [] => True
  | .rpar :: _ | .rbrack :: _ | .lbrace :: _ | .rbrace :: _ | .comma :: _ => True
  | _ => False

theorem Good.closed {ts : List (Tok F)} {t : RExpr F} {L : Nat} {ec : Bool} (h : Good ts t L ec)
    (rest : List (Tok F)) (hr : Closing rest) :
    ∃ n, ∀ m, n ≤ m → rExpr m 0 (ts ++ rest) = some (t, rest) := by
  have hf : Follow L ec rest := by
    cases rest with
    | nil => trivial
    | cons s r => cases s <;> first | trivial | exact hr.elim
  obtain ⟨n, hn⟩ := h.level rest 0 (Nat.zero_le _) hf 1
  refine ⟨n, fun m hm => ?_⟩
  obtain ⟨k, hk, he⟩ := hn m hm
  rw [he]
  refine rLoop_stops k 0 t rest L ec hk hf (fun o r h => ?_)
  rw [h] at hr
  exact hr.elim

/-- What starts with an operand rather than a unary operator. -/
theorem rUnary_primary (n : Nat) (s : Tok F) (ts : List (Tok F)) (h1 : s ≠ .op (.arith .sub))
    (h2 : s ≠ .bang) :
    rUnary (n + 1) (s :: ts) = (rPrimary n (s :: ts)).bind fun r => rPost n r.1 r.2 := by
  rw [rUnary]
  · intro _ h; cases h; exact h1 rfl
  · intro _ h; cases h; exact h2 rfl

/-- Operands that `rPrimary` reads. -/
theorem readsPost_of_primary (s : Tok F) (ts : List (Tok F)) (t : RExpr F)
    (h1 : s ≠ .op (.arith .sub)) (h2 : s ≠ .bang)
    (h : ∀ rest, ∃ n, ∀ m, n ≤ m → rPrimary m (s :: (ts ++ rest)) = some (t, rest)) :
    ReadsPost (s :: ts) t := by
  intro rest b
  obtain ⟨n, hn⟩ := h rest
  refine ⟨n + b + 1, fun m hm => ⟨m - 1, by omega, ?_⟩⟩
  obtain ⟨m, rfl⟩ : ∃ k, m = k + 1 := ⟨m - 1, by omega⟩
  rw [List.cons_append, rUnary_primary m s _ h1 h2, hn m (by omega)]
  rfl

theorem readsPost_atom (a : Atom F) : ReadsPost [.atom a] (.atom a) := by
  refine readsPost_of_primary _ [] _ (by simp) (by simp) (fun rest => ⟨1, fun m hm => ?_⟩)
  obtain ⟨m, rfl⟩ : ∃ k, m = k + 1 := ⟨m - 1, by omega⟩
  rw [List.nil_append, rPrimary]

theorem readsPost_paren {ts : List (Tok F)} {t : RExpr F} {L : Nat} {ec : Bool} (h : Good ts t L ec) :
    ReadsPost ([.lpar] ++ ts ++ [.rpar]) (.paren t) := by
  rw [List.append_assoc]
  refine readsPost_of_primary _ _ _ (by simp) (by simp) (fun rest => ?_)
  obtain ⟨n, hn⟩ := h.closed (.rpar :: rest) trivial
  refine ⟨n + 1, fun m hm => ?_⟩
  obtain ⟨m, rfl⟩ : ∃ k, m = k + 1 := ⟨m - 1, by omega⟩
  have hone : rPrimary (m + 1) (.lpar :: (ts ++ [.rpar] ++ rest)) =
      (rExpr m 0 (ts ++ [.rpar] ++ rest)).bind fun e => expect Tok.isRpar (.paren e.1) e.2 := by
    rw [rPrimary]
  show rPrimary (m + 1) (.lpar :: (ts ++ [.rpar] ++ rest)) = _
  rw [hone, List.append_assoc, List.singleton_append, hn m (by omega)]
  rfl

theorem readsPost_apply (path : String) {ts : List (Tok F)} {t : RExpr F} {L : Nat} {ec : Bool}
    (h : Good ts t L ec) :
    ReadsPost ([.func path, .lpar] ++ ts ++ [.rpar]) (.apply path t) := by
  rw [List.append_assoc]
  refine readsPost_of_primary _ _ _ (by simp) (by simp) (fun rest => ?_)
  obtain ⟨n, hn⟩ := h.closed (.rpar :: rest) trivial
  refine ⟨n + 1, fun m hm => ?_⟩
  obtain ⟨m, rfl⟩ : ∃ k, m = k + 1 := ⟨m - 1, by omega⟩
  have hone : rPrimary (m + 1) (.func path :: .lpar :: (ts ++ [.rpar] ++ rest)) =
      (rExpr m 0 (ts ++ [.rpar] ++ rest)).bind fun e => expect Tok.isRpar (.apply path e.1) e.2 := by
    rw [rPrimary]
  show rPrimary (m + 1) (.func path :: .lpar :: (ts ++ [.rpar] ++ rest)) = _
  rw [hone, List.append_assoc, List.singleton_append, hn m (by omega)]
  rfl

theorem readsPost_ite {ts us vs : List (Tok F)} {t u v : RExpr F} {L1 L2 L3 : Nat} {c1 c2 c3 : Bool}
    (h1 : Good ts t L1 c1) (h2 : Good us u L2 c2) (h3 : Good vs v L3 c3) :
    ReadsPost ([.kwIf] ++ ts ++ [.lbrace] ++ us ++ [.rbrace, .kwElse, .lbrace] ++ vs ++ [.rbrace])
      (.ite t u v) := by
  have happ : ∀ rest : List (Tok F), [.kwIf] ++ ts ++ [.lbrace] ++ us ++ [.rbrace, .kwElse, .lbrace] ++
      vs ++ [.rbrace] ++ rest =
      .kwIf :: (ts ++ .lbrace :: (us ++ .rbrace :: .kwElse :: .lbrace :: (vs ++ .rbrace :: rest))) := by
    intro rest; simp
  have hts : [.kwIf] ++ ts ++ [.lbrace] ++ us ++ [.rbrace, .kwElse, .lbrace] ++ vs ++ [.rbrace] =
      .kwIf :: (ts ++ .lbrace :: (us ++ .rbrace :: .kwElse :: .lbrace :: (vs ++ [.rbrace]))) := by simp
  rw [hts]
  refine readsPost_of_primary _ _ _ (by simp) (by simp) (fun rest => ?_)
  obtain ⟨n3, hn3⟩ := h3.closed (.rbrace :: rest) trivial
  obtain ⟨n2, hn2⟩ := h2.closed (.rbrace :: .kwElse :: .lbrace :: (vs ++ .rbrace :: rest)) trivial
  obtain ⟨n1, hn1⟩ := h1.closed
    (.lbrace :: (us ++ .rbrace :: .kwElse :: .lbrace :: (vs ++ .rbrace :: rest))) trivial
  refine ⟨n1 + n2 + n3 + 1, fun m hm => ?_⟩
  obtain ⟨m, rfl⟩ : ∃ k, m = k + 1 := ⟨m - 1, by omega⟩
  have hrest : ts ++ .lbrace :: (us ++ .rbrace :: .kwElse :: .lbrace :: (vs ++ [.rbrace])) ++ rest =
      ts ++ .lbrace :: (us ++ .rbrace :: .kwElse :: .lbrace :: (vs ++ .rbrace :: rest)) := by simp
  rw [hrest, rPrimary, hn1 m (by omega)]
  simp only [Option.bind_some, expect, Tok.isLbrace, if_true]
  rw [hn2 m (by omega)]
  simp only [Option.bind_some, expect, Tok.isRbrace, Tok.isElse, if_true]
  rw [hn3 m (by omega)]
  rfl

theorem readsPost_format {ts us : List (Tok F)} {t u : RExpr F} {L1 L2 : Nat} {c1 c2 : Bool}
    (h1 : Good ts t L1 c1) (h2 : Good us u L2 c2) :
    ReadsPost ([.format] ++ ts ++ [.comma] ++ us ++ [.rpar]) (.concat t u) := by
  have hts : [.format] ++ ts ++ [.comma] ++ us ++ [.rpar] =
      .format :: (ts ++ .comma :: (us ++ [.rpar])) := by simp
  rw [hts]
  refine readsPost_of_primary _ _ _ (by simp) (by simp) (fun rest => ?_)
  obtain ⟨n2, hn2⟩ := h2.closed (.rpar :: rest) trivial
  obtain ⟨n1, hn1⟩ := h1.closed (.comma :: (us ++ .rpar :: rest)) trivial
  refine ⟨n1 + n2 + 1, fun m hm => ?_⟩
  obtain ⟨m, rfl⟩ : ∃ k, m = k + 1 := ⟨m - 1, by omega⟩
  have hrest : ts ++ .comma :: (us ++ [.rpar]) ++ rest = ts ++ .comma :: (us ++ .rpar :: rest) := by
    simp
  rw [hrest, rPrimary, hn1 m (by omega)]
  simp only [Option.bind_some, expect, Tok.isComma, if_true]
  rw [hn2 m (by omega)]
  rfl

/-- What comes behind an operand and is read by `rPost`. -/
theorem ReadsPost.append {ts us : List (Tok F)} {t u : RExpr F} (h : ReadsPost ts t)
    (hu : ∀ rest, ∃ n, ∀ m, n ≤ m → ∀ b, b + n ≤ m → ∃ k, b ≤ k ∧ rPost m t (us ++ rest) =
      rPost k u rest) : ReadsPost (ts ++ us) u := by
  intro rest b
  obtain ⟨n, hn⟩ := hu rest
  obtain ⟨n', hn'⟩ := h (us ++ rest) (n + b)
  refine ⟨n', fun m hm => ?_⟩
  obtain ⟨k, hk, he⟩ := hn' m hm
  obtain ⟨k', hk', he'⟩ := hn k (by omega) b (by omega)
  exact ⟨k', hk', by rw [List.append_assoc, he, he']⟩

theorem ReadsPost.field {ts : List (Tok F)} {t : RExpr F} (h : ReadsPost ts t) (name : String) :
    ReadsPost (ts ++ [.dot name]) (.field t name) := by
  refine h.append (fun rest => ⟨1, fun m hm b hb => ⟨m - 1, by omega, ?_⟩⟩)
  obtain ⟨m, rfl⟩ : ∃ k, m = k + 1 := ⟨m - 1, by omega⟩
  rw [List.singleton_append, rPost]
  rfl

theorem ReadsPost.call {ts : List (Tok F)} {t : RExpr F} (h : ReadsPost ts t) :
    ReadsPost (ts ++ [.lpar, .rpar]) (.call t) := by
  refine h.append (fun rest => ⟨1, fun m hm b hb => ⟨m - 1, by omega, ?_⟩⟩)
  obtain ⟨m, rfl⟩ : ∃ k, m = k + 1 := ⟨m - 1, by omega⟩
  rw [List.cons_append, List.singleton_append, rPost]
  rfl

theorem ReadsPost.elem {ts us : List (Tok F)} {t u : RExpr F} {L : Nat} {ec : Bool} (h : ReadsPost ts t)
    (hu : Good us u L ec) : ReadsPost (ts ++ [.lbrack] ++ us ++ [.rbrack]) (.elem t u) := by
  rw [List.append_assoc, List.append_assoc]
  refine h.append (fun rest => ?_)
  obtain ⟨n, hn⟩ := hu.closed (.rbrack :: rest) trivial
  refine ⟨n + 1, fun m hm b hb => ⟨m - 1, by omega, ?_⟩⟩
  obtain ⟨m, rfl⟩ : ∃ k, m = k + 1 := ⟨m - 1, by omega⟩
  have hrest : [.lbrack] ++ (us ++ [.rbrack]) ++ rest = .lbrack :: (us ++ .rbrack :: rest) := by simp
  rw [hrest, rPost, hn m (by omega)]
  rfl

theorem ReadsUnary.neg {ts : List (Tok F)} {t : RExpr F} (h : ReadsUnary ts t) :
    ReadsUnary ([.op (.arith .sub)] ++ ts) (.neg t) := by
  intro rest hr
  obtain ⟨n, hn⟩ := h rest hr
  refine ⟨n + 1, fun m hm => ?_⟩
  obtain ⟨m, rfl⟩ : ∃ k, m = k + 1 := ⟨m - 1, by omega⟩
  rw [List.append_assoc, List.singleton_append, rUnary, hn m (by omega)]
  rfl

theorem ReadsUnary.not {ts : List (Tok F)} {t : RExpr F} (h : ReadsUnary ts t) :
    ReadsUnary ([.bang] ++ ts) (.not t) := by
  intro rest hr
  obtain ⟨n, hn⟩ := h rest hr
  refine ⟨n + 1, fun m hm => ?_⟩
  obtain ⟨m, rfl⟩ : ∃ k, m = k + 1 := ⟨m - 1, by omega⟩
  rw [List.append_assoc, List.singleton_append, rUnary, hn m (by omega)]
  rfl

theorem good_cast {ts : List (Tok F)} {t : RExpr F} (h : ReadsUnary ts t) (ty : String) :
    Good (ts ++ [.as ty]) (.cast t ty) 11 true := by
  refine ⟨fun rest min _ hf b => ?_, fun h => by omega, fun h => by omega⟩
  obtain ⟨n, hn⟩ := h (.as ty :: rest) trivial
  refine ⟨n + b + 2, fun m hm => ⟨m - 2, by omega, ?_⟩⟩
  obtain ⟨m, rfl⟩ : ∃ k, m = k + 2 := ⟨m - 2, by omega⟩
  rw [List.append_assoc, List.singleton_append, rExpr, hn (m + 1) (by omega)]
  have hg : startsGenerics rest = false := by
    cases rest with
    | nil => rfl
    | cons s r =>
      cases s with
      | op o =>
        obtain ⟨h1, h2⟩ := hf.2.2 rfl
        cases o with
        | cmp c => cases c <;> first | rfl | exact absurd rfl h1
        | bit c => cases c <;> first | rfl | exact absurd rfl h2
        | _ => rfl
      | _ => rfl
  simp only [Option.bind_some]
  rw [rLoop, hg]
  rfl

/-- A binary operation whose operands have suitable precedences. -/
theorem good_bin {ts us : List (Tok F)} {t u : RExpr F} {L1 L2 : Nat} {c1 c2 : Bool} (o : BinOp)
    (h1 : Good ts t L1 c1) (h2 : Good us u L2 c2) (hL1 : o.prec ≤ L1) (hL2 : o.prec < L2)
    (hcmp : o.prec = 4 → L1 ≠ 4) (hcast : c1 = true → o ≠ .cmp .lt ∧ o ≠ .bit .shl) :
    Good (ts ++ [.op o] ++ us) (.bin o t u) o.prec c2 := by
  have hp : o.prec ≤ 10 := by cases o with
    | arith op => cases op <;> decide
    | bit op => cases op <;> decide
    | cmp op => cases op <;> decide
    | logic op => cases op <;> decide
  refine ⟨fun rest min hmin hf b => ?_, fun h => by omega, fun h => by omega⟩
  have hf2 : Follow L2 c2 rest := by
    cases rest with
    | nil => trivial
    | cons s r =>
      cases s with
      | op o' =>
        refine ⟨by have := hf.1; omega, fun h4 => ?_, hf.2.2⟩
        have := hf.1; have := hf.2.1 h4; omega
      | _ => first | trivial | exact hf.elim
  obtain ⟨n2, hn2⟩ := h2.level rest (o.prec + 1) hL2 hf2 1
  have hb : ∀ m, n2 ≤ m → rExpr m (o.prec + 1) (us ++ rest) = some (u, rest) := by
    intro m hm
    obtain ⟨k, hk, he⟩ := hn2 m hm
    rw [he]
    refine rLoop_stops k _ u rest L2 c2 hk hf2 (fun o' r hr => ?_)
    rw [hr] at hf
    have := hf.1
    omega
  have hf1 : Follow L1 c1 (.op o :: (us ++ rest)) := ⟨hL1, hcmp, hcast⟩
  obtain ⟨n, hn⟩ := h1.level (.op o :: (us ++ rest)) min (by omega) hf1 (n2 + b + 1)
  refine ⟨n, fun m hm => ?_⟩
  obtain ⟨k, hk, he⟩ := hn m hm
  obtain ⟨k, rfl⟩ : ∃ j, k = j + 1 := ⟨k - 1, by omega⟩
  refine ⟨k, by omega, ?_⟩
  have happ : ts ++ [.op o] ++ us ++ rest = ts ++ .op o :: (us ++ rest) := by simp
  have hone : rLoop (k + 1) min t (.op o :: (us ++ rest)) =
      if min ≤ o.prec then
        (rExpr k (o.prec + 1) (us ++ rest)).bind fun r =>
          if o.prec = 4 ∧ startsWithCmp r.2 = true then none
          else rLoop k min (.bin o t r.1) r.2
      else some (t, .op o :: (us ++ rest)) := by rw [rLoop]
  rw [happ, he, hone, if_pos hmin, hb k (by omega)]
  simp only [Option.bind_some]
  rw [if_neg]
  rintro ⟨h4, hc⟩
  cases rest with
  | nil => cases hc
  | cons s r =>
    cases s with
    | op o' =>
      cases o' with
      | cmp c => exact hf.2.1 rfl h4
      | _ => cases hc
    | _ => cases hc

/-- A weaker statement about the precedence. -/
theorem Good.weaken {ts : List (Tok F)} {t : RExpr F} {L L' : Nat} {c c' : Bool} (h : Good ts t L c)
    (hL : L' ≤ L) (hc : c = true → c' = true) : Good ts t L' c' := by
  refine ⟨fun rest min hmin hf b => h.level rest min (by omega) ?_ b, fun h' => h.unary (by omega),
    fun h' => h.post (by omega)⟩
  cases rest with
  | nil => trivial
  | cons s r =>
    cases s with
    | op o =>
      refine ⟨by have := hf.1; omega, fun h4 hL4 => ?_, fun h => hf.2.2 (hc h)⟩
      have := hf.1; have := hf.2.1 h4; omega
    | _ => first | trivial | exact hf.elim

end Parser

section Text

variable {fo : FloatOps}

/-- `isset(..)`, `valueof(..)`, a comparison. -/
def Expr.isIsset {F : Type} : Expr F → Bool | .isset .. => true | _ => false
def Expr.isValueof {F : Type} : Expr F → Bool | .valueof .. => true | _ => false
/-- One unit of text: what is put in front of it or behind it applies to all of it.  A name, an item, an element, a
literal, a call or an expression in parentheses. -/
def Expr.Unit {F : Type} (e : Expr F) : Prop := 12 ≤ e.level ∧ e.isIsset = false ∧ e.isValueof = false
def Expr.isCmp {F : Type} : Expr F → Bool | .cmp .. => true | _ => false
def Expr.isTern {F : Type} : Expr F → Bool | .tern .. => true | _ => false

/-- No operand whose text would be torn apart, and no operator that Rust does not have:
* no unary `+` and no `~`;
* no `isset` or `valueof` as the operand of `!` or `-`;
* no comparison or `isset` as an operand of a comparison;
* no text that ends with `as T` in front of `<` or `<<`;
* no `valueof` that is indexed;
* the operand of `lengthof` is a name, a field, ..., not an operation.

(All this refers to operands without parentheses.) -/
def Expr.Separable {F : Type} (casts : TextInfo F) : Expr F → Prop
  | .plus _ | .compl _ => False
  | .neg e | .not e => e.Separable casts ∧ e.isIsset = false ∧ e.isValueof = false
  | .paren e | .valueof e | .numbits e | .call e | .dot e _ => e.Separable casts
  | .lengthof e => e.Separable casts ∧ (12 ≤ e.level ∨ e.isTern = true) ∧ e.isIsset = false ∧
      e.isValueof = false
  | .isset e x => e.Separable casts ∧ x.Separable casts
  | .elem e i => e.Separable casts ∧ i.Separable casts ∧ e.isValueof = false
  | .cmp op a b => a.Separable casts ∧ b.Separable casts ∧ a.isCmp = false ∧ b.isCmp = false ∧
      a.isIsset = false ∧ b.isIsset = false ∧
      (op = .lt → a.endsWithCast casts.castRight = false)
  | .bit op a b => a.Separable casts ∧ b.Separable casts ∧
      (op = .shl → a.endsWithCast casts.castRight = false)
  | .arith _ a b | .logic _ a b => a.Separable casts ∧ b.Separable casts
  | .tern c a b => c.Separable casts ∧ a.Separable casts ∧ b.Separable casts
  | _ => True

/-- The precedence of the Rust text of an expression. -/
def Expr.rustLevel {F : Type} : Expr F → Nat
  | .valueof _ => 11
  | .isset .. => 4
  | .plus _ | .neg _ | .not _ | .compl _ => 12
  | .cmp op _ _ => (BinOp.cmp op).prec
  | .arith op _ _ => (BinOp.arith op).prec
  | .bit op _ _ => (BinOp.bit op).prec
  | .logic op _ _ => (BinOp.logic op).prec
  | _ => 13

/-- What binds as tight as a name in the schema does so in Rust, except `isset` and `valueof`. -/
theorem rustLevel_atom {F : Type} (e : Expr F) (h : 12 ≤ e.level) (h1 : e.isIsset = false)
    (h2 : e.isValueof = false) : e.rustLevel = 13 := by
  cases e with
  | isset => cases h1
  | valueof => cases h2
  | cmp op => cases op <;> simp [Expr.level] at h
  | arith op => cases op <;> simp [Expr.level] at h
  | bit op => cases op <;> simp [Expr.level] at h
  | logic op => cases op <;> simp [Expr.level] at h
  | tern => simp [Expr.level] at h
  | plus => simp [Expr.level] at h
  | neg => simp [Expr.level] at h
  | not => simp [Expr.level] at h
  | compl => simp [Expr.level] at h
  | _ => rfl

/-- What has a boolean value, by the operator alone. -/
theorem isset_bool (md : Mode) (sc : EScope fo.F) (e : Expr fo.F) (h : e.isIsset = true) (c : CVal fo.F)
    (r : Bool) (he : e.evaluate md sc = .ok (c, r)) : ∃ b, c = .bool b := by
  cases e with
  | isset e x =>
    simp only [Expr.evaluate] at he
    obtain ⟨⟨c1, r1⟩, _, he⟩ := Res.bind_eq_ok.1 he
    obtain ⟨⟨c2, r2⟩, _, he⟩ := Res.bind_eq_ok.1 he
    cases c1 <;> simp only at he <;> first | cases he | skip
    cases c2 <;> simp only at he <;> cases he
    exact ⟨_, rfl⟩
  | _ => cases h

theorem valueof_int (md : Mode) (sc : EScope fo.F) (e : Expr fo.F) (h : e.isValueof = true)
    (c : CVal fo.F) (r : Bool) (he : e.evaluate md sc = .ok (c, r)) : ∃ v, c = .int v := by
  cases e with
  | valueof e =>
    simp only [Expr.evaluate] at he
    obtain ⟨⟨c1, r1⟩, _, he⟩ := Res.bind_eq_ok.1 he
    cases c1 <;> simp only at he <;> cases he <;> exact ⟨_, rfl⟩
  | _ => cases h

theorem cmp_bool (md : Mode) (sc : EScope fo.F) (e : Expr fo.F) (h : e.isCmp = true) (c : CVal fo.F)
    (r : Bool) (he : e.evaluate md sc = .ok (c, r)) : ∃ b, c = .bool b := by
  cases e with
  | cmp op a b =>
    simp only [Expr.evaluate] at he
    obtain ⟨⟨c1, r1⟩, _, he⟩ := Res.bind_eq_ok.1 he
    obtain ⟨⟨c2, r2⟩, _, he⟩ := Res.bind_eq_ok.1 he
    obtain ⟨⟨c3, r3⟩, h3, he⟩ := Res.bind_eq_ok.1 he
    cases he
    cases c1 <;> cases c2 <;> cases op <;> simp only [evalCmp] at h3 <;> cases h3 <;> exact ⟨_, rfl⟩
  | _ => cases h

/-- Enums and bitmasks come from names, fields, calls, elements and `? :`. -/
theorem rustLevel_handle (md : Mode) (sc : EScope fo.F) (e : Expr fo.F) (c : CVal fo.F) (r : Bool)
    (he : e.evaluate md sc = .ok (c, r)) (hc : c = .bitmask ∨ c = .enum) : e.rustLevel = 13 := by
  have hno : ∀ (x : CVal fo.F), (∃ v, x = .int v) ∨ (∃ v, x = .bool v) ∨ (∃ v, x = .float v) ∨
      (∃ v, x = .str v) → ¬ (x = .bitmask ∨ x = .enum) := by
    rintro x (⟨v, rfl⟩ | ⟨v, rfl⟩ | ⟨v, rfl⟩ | ⟨v, rfl⟩) h <;> rcases h with h | h <;> cases h
  cases e with
  | isset e x => exact absurd hc (hno _ (.inr (.inl (isset_bool md sc _ rfl c r he))))
  | valueof e => exact absurd hc (hno _ (.inl (valueof_int md sc _ rfl c r he)))
  | cmp op a b => exact absurd hc (hno _ (.inr (.inl (cmp_bool md sc _ rfl c r he))))
  | plus e =>
    simp only [Expr.evaluate] at he
    obtain ⟨⟨c1, r1⟩, _, he⟩ := Res.bind_eq_ok.1 he
    cases c1 <;> simp only at he <;> cases he <;> rcases hc with h | h <;> cases h
  | neg e =>
    simp only [Expr.evaluate] at he
    obtain ⟨⟨c1, r1⟩, _, he⟩ := Res.bind_eq_ok.1 he
    obtain ⟨c2, h2, he⟩ := Res.bind_eq_ok.1 he
    cases he
    cases c1 with
    | int v =>
      simp only [evalNeg] at h2
      split at h2
      · cases md <;> simp only at h2 <;> cases h2
        rcases hc with h | h <;> cases h
      · cases h2; rcases hc with h | h <;> cases h
    | float f => cases h2; rcases hc with h | h <;> cases h
    | _ => cases h2
  | not e =>
    simp only [Expr.evaluate] at he
    obtain ⟨⟨c1, r1⟩, _, he⟩ := Res.bind_eq_ok.1 he
    cases c1 <;> simp only at he <;> cases he <;> rcases hc with h | h <;> cases h
  | compl e =>
    simp only [Expr.evaluate] at he
    obtain ⟨⟨c1, r1⟩, _, he⟩ := Res.bind_eq_ok.1 he
    cases c1 <;> simp only at he <;> cases he <;> rcases hc with h | h <;> cases h
  | arith op a b =>
    simp only [Expr.evaluate] at he
    obtain ⟨⟨c1, r1⟩, _, he⟩ := Res.bind_eq_ok.1 he
    obtain ⟨⟨c2, r2⟩, _, he⟩ := Res.bind_eq_ok.1 he
    obtain ⟨c3, h3, he⟩ := Res.bind_eq_ok.1 he
    cases he
    refine absurd hc (hno _ ?_)
    have hfl : ∀ x y : fo.F, (match op.onFloat fo x y with
        | some z => Res.ok (CVal.float z)
        | none => .panic) = .ok c → ∃ v, c = .float v := by
      intro x y h
      cases ho : op.onFloat fo x y with
      | none => rw [ho] at h; cases h
      | some z => rw [ho] at h; cases h; exact ⟨_, rfl⟩
    cases c1 <;> cases c2 <;> simp only [evalArith] at h3 <;> first
      | cases h3
      | exact .inr (.inr (.inl (hfl _ _ h3)))
      | skip
    · obtain ⟨z, _, h3⟩ := Res.bind_eq_ok.1 h3
      cases h3
      exact .inl ⟨_, rfl⟩
    · cases op <;> simp only at h3 <;> cases h3
      exact .inr (.inr (.inr ⟨_, rfl⟩))
  | bit op a b =>
    simp only [Expr.evaluate] at he
    obtain ⟨⟨c1, r1⟩, _, he⟩ := Res.bind_eq_ok.1 he
    obtain ⟨⟨c2, r2⟩, _, he⟩ := Res.bind_eq_ok.1 he
    obtain ⟨⟨c3, r3⟩, h3, he⟩ := Res.bind_eq_ok.1 he
    cases he
    refine absurd hc (hno _ (.inl ?_))
    cases c1 <;> cases c2 <;> simp only [evalBit] at h3 <;> first
      | (cases h3; exact ⟨_, rfl⟩)
      | cases h3
      | skip
    obtain ⟨z, _, h3⟩ := Res.bind_eq_ok.1 h3
    cases h3
    exact ⟨_, rfl⟩
  | logic op a b =>
    simp only [Expr.evaluate] at he
    obtain ⟨⟨c1, r1⟩, _, he⟩ := Res.bind_eq_ok.1 he
    obtain ⟨⟨c2, r2⟩, _, he⟩ := Res.bind_eq_ok.1 he
    obtain ⟨c3, h3, he⟩ := Res.bind_eq_ok.1 he
    cases he
    cases c1 <;> cases c2 <;> simp only [evalLogic] at h3 <;> cases h3 <;> rcases hc with h | h <;>
      cases h
  | _ => rfl

/-- Operands of unary operators. -/
theorem rustLevel_unary {F : Type} (e : Expr F) (h : 11 ≤ e.level) (h1 : e.isIsset = false)
    (h2 : e.isValueof = false) : 12 ≤ e.rustLevel := by
  cases e with
  | isset => cases h1
  | valueof => cases h2
  | cmp op => cases op <;> simp [Expr.level] at h
  | arith op => cases op <;> simp [Expr.level] at h
  | bit op => cases op <;> simp [Expr.level] at h
  | logic op => cases op <;> simp [Expr.level] at h
  | tern => simp [Expr.level] at h
  | _ => simp [Expr.rustLevel]

/-- Operands of comparisons. -/
theorem rustLevel_cmp {F : Type} (e : Expr F) (h : 6 ≤ e.level) (h1 : e.isIsset = false)
    (h2 : e.isCmp = false) : 4 < e.rustLevel := by
  cases e with
  | isset => cases h1
  | cmp op => cases h2
  | arith op => cases op <;> simp [Expr.rustLevel, BinOp.prec]
  | bit op => cases op <;> simp [Expr.level, Expr.rustLevel, BinOp.prec] at h ⊢
  | logic op => cases op <;> simp [Expr.level] at h
  | tern => simp [Expr.level] at h
  | _ => simp [Expr.rustLevel]

/-- Operands of bit operations. -/
theorem rustLevel_bit {F : Type} (e x y : Expr F) (op : BitOp) (h1 : e.isIsset = false)
    (h2 : e.isCmp = false) :
    ((Expr.bit op x y).level ≤ e.level → (BinOp.bit op).prec ≤ e.rustLevel) ∧
    ((Expr.bit op x y).level < e.level → (BinOp.bit op).prec < e.rustLevel) := by
  cases e with
  | isset => cases h1
  | cmp op => cases h2
  | arith op' => cases op <;> cases op' <;> simp [Expr.level, Expr.rustLevel, BinOp.prec]
  | bit op' => cases op <;> cases op' <;> simp [Expr.level, Expr.rustLevel, BinOp.prec]
  | logic op' => cases op <;> cases op' <;> simp [Expr.level, Expr.rustLevel, BinOp.prec]
  | _ => cases op <;> simp [Expr.level, Expr.rustLevel, BinOp.prec]

/-- Operands of arithmetic. -/
theorem rustLevel_arith {F : Type} (e x y : Expr F) (op : ArithOp) (h1 : e.isIsset = false) :
    ((Expr.arith op x y).level ≤ e.level → (BinOp.arith op).prec ≤ e.rustLevel) ∧
    ((Expr.arith op x y).level < e.level → (BinOp.arith op).prec < e.rustLevel) := by
  cases e with
  | isset => cases h1
  | cmp op' => cases op <;> cases op' <;> simp [Expr.level, Expr.rustLevel, BinOp.prec]
  | arith op' => cases op <;> cases op' <;> simp [Expr.level, Expr.rustLevel, BinOp.prec]
  | bit op' => cases op <;> cases op' <;> simp [Expr.level, Expr.rustLevel, BinOp.prec]
  | logic op' => cases op <;> cases op' <;> simp [Expr.level, Expr.rustLevel, BinOp.prec]
  | _ => cases op <;> simp [Expr.level, Expr.rustLevel, BinOp.prec]

/-- Operands of `&&` and `||`. -/
theorem rustLevel_logic {F : Type} (e x y : Expr F) (op : LogicOp) :
    ((Expr.logic op x y).level ≤ e.level → (BinOp.logic op).prec ≤ e.rustLevel) ∧
    ((Expr.logic op x y).level < e.level → (BinOp.logic op).prec < e.rustLevel) := by
  cases e with
  | cmp op' => cases op <;> cases op' <;> simp [Expr.level, Expr.rustLevel, BinOp.prec]
  | arith op' => cases op <;> cases op' <;> simp [Expr.level, Expr.rustLevel, BinOp.prec]
  | bit op' => cases op <;> cases op' <;> simp [Expr.level, Expr.rustLevel, BinOp.prec]
  | logic op' => cases op <;> cases op' <;> simp [Expr.level, Expr.rustLevel, BinOp.prec]
  | _ => cases op <;> simp [Expr.level, Expr.rustLevel, BinOp.prec]

/-- An operand with its cast. -/
theorem good_castText (cast : Option String) {ts : List (Tok fo.F)} {t : RExpr fo.F} {L : Nat}
    {ec : Bool} (h : Good ts t L ec) (hL : L ≤ 13) :
    Good (castText cast ts) (castTree cast t) L (cast.isNone && ec) := by
  cases cast with
  | none => exact h
  | some ty =>
    have happ : (castText (some ty) ts : List (Tok fo.F)) =
        [.lpar] ++ (([.lpar] ++ ts ++ [.rpar]) ++ [.as ty]) ++ [.rpar] := by simp [castText]
    rw [happ]
    exact (readsPost_paren (good_cast (readsPost_paren h).unary ty)).good _ _

/-- Texts whose grouping survives are read as meant. -/
theorem text_good (md : Mode) (sc : EScope fo.F) (info : TextInfo fo.F) (e : Expr fo.F) :
    ∀ ts c, e.Parsed → e.Separable info → e.evaluate md sc = .ok c → e.text md sc info = some ts →
      Good ts (e.tree md sc info) e.rustLevel (e.endsWithCast info.castRight) := by
  induction e with
  | intLit n => intro ts c _ _ _ ht; cases ht; exact (readsPost_atom _).good _ _
  | boolLit n => intro ts c _ _ _ ht; cases ht; exact (readsPost_atom _).good _ _
  | strLit n => intro ts c _ _ _ ht; cases ht; exact (readsPost_atom _).good _ _
  | floatLit n => intro ts c _ _ _ ht; cases ht; exact (readsPost_atom _).good _ _
  | index => intro ts c _ _ _ ht; cases ht; exact (readsPost_atom _).good _ _
  | ident n => intro ts c _ _ _ ht; cases ht; exact (readsPost_atom _).good _ _
  | paren e ih =>
    intro ts c hp hs he ht
    simp only [Expr.text, Option.map_eq_some_iff] at ht
    obtain ⟨t, ht, rfl⟩ := ht
    exact (readsPost_paren (ih t c hp hs he ht)).good _ _
  | call e ih =>
    intro ts c hp hs he ht
    simp only [Expr.text, Option.map_eq_some_iff] at ht
    obtain ⟨t, ht, rfl⟩ := ht
    simp only [Expr.evaluate] at he
    obtain ⟨⟨c1, r1⟩, h1, he⟩ := Res.bind_eq_ok.1 he
    have hg := ih t _ hp.1 hs h1 ht
    have h13 : e.rustLevel = 13 := by
      refine rustLevel_atom e hp.2 ?_ ?_
      · cases hc : e.isIsset with
        | false => rfl
        | true => obtain ⟨b, rfl⟩ := isset_bool md sc e hc c1 r1 h1; cases he
      · cases hc : e.isValueof with
        | false => rfl
        | true => obtain ⟨b, rfl⟩ := valueof_int md sc e hc c1 r1 h1; cases he
    exact (hg.post (by omega)).call.good _ _
  | elem e i ih ihi =>
    intro ts c hp hs he ht
    simp only [Expr.text, Option.bind_eq_some_iff, Option.map_eq_some_iff] at ht
    obtain ⟨t, ht, u, hu, rfl⟩ := ht
    simp only [Expr.evaluate] at he
    obtain ⟨⟨c1, r1⟩, h1, he⟩ := Res.bind_eq_ok.1 he
    obtain ⟨⟨c2, r2⟩, h2, he⟩ := Res.bind_eq_ok.1 he
    have hg := ih t _ hp.1 hs.1 h1 ht
    have hi := ihi u _ hp.2.2 hs.2.1 h2 hu
    have h13 : e.rustLevel = 13 := by
      refine rustLevel_atom e hp.2.1 ?_ hs.2.2
      cases hc : e.isIsset with
      | false => rfl
      | true => obtain ⟨b, rfl⟩ := isset_bool md sc e hc c1 r1 h1; cases he
    exact ((hg.post (by omega)).elem hi).good _ _
  | dot e name ih =>
    intro ts c hp hs he ht
    simp only [Expr.evaluate] at he
    obtain ⟨⟨c1, r1⟩, h1, he⟩ := Res.bind_eq_ok.1 he
    simp only [Expr.text, Expr.tree, h1] at ht ⊢
    cases c1 with
    | enum => cases ht; exact (readsPost_atom _).good _ _
    | bitmask => cases ht; exact (readsPost_atom _).good _ _
    | compound =>
      simp only [Option.map_eq_some_iff] at ht
      obtain ⟨t, ht, rfl⟩ := ht
      have hg := ih t _ hp.1 hs h1 ht
      have h13 : e.rustLevel = 13 := by
        refine rustLevel_atom e hp.2 ?_ ?_
        · cases hc : e.isIsset with
          | false => rfl
          | true => obtain ⟨b, hb⟩ := isset_bool md sc e hc _ r1 h1; cases hb
        · cases hc : e.isValueof with
          | false => rfl
          | true => obtain ⟨b, hb⟩ := valueof_int md sc e hc _ r1 h1; cases hb
      exact ((hg.post (by omega)).field name).good _ _
    | _ => cases he
  | isset e x ih ihx =>
    intro ts c hp hs he ht
    simp only [Expr.text, Option.bind_eq_some_iff, Option.map_eq_some_iff] at ht
    obtain ⟨t, ht, u, hu, rfl⟩ := ht
    simp only [Expr.evaluate] at he
    obtain ⟨⟨c1, r1⟩, h1, he⟩ := Res.bind_eq_ok.1 he
    obtain ⟨⟨c2, r2⟩, h2, he⟩ := Res.bind_eq_ok.1 he
    have hg := ih t _ hp.1 hs.1 h1 ht
    have hx := ihx u _ hp.2 hs.2 h2 hu
    have hc1 : c1 = .bitmask := by cases c1 <;> first | rfl | cases he
    have h13 := rustLevel_handle md sc e c1 r1 h1 (.inl hc1)
    rw [h13] at hg
    have hand := good_bin (.bit .and) ((hg.post (by omega)).good 13 false)
      ((readsPost_paren hx).good 13 false) (by decide) (by decide) (by decide) (by simp)
    have hne := good_bin (.cmp .ne) hand ((readsPost_atom (.int 0)).good 13 false) (by decide)
      (by decide) (by decide) (by simp)
    have happ : (t ++ [.op (.bit .and), .lpar] ++ u ++ [.rpar, .op (.cmp .ne), .atom (.int 0)] :
        List (Tok fo.F)) = t ++ [.op (.bit .and)] ++ ([.lpar] ++ u ++ [.rpar]) ++ [.op (.cmp .ne)] ++
        [.atom (.int 0)] := by simp
    rw [happ]
    exact hne
  | valueof e ih =>
    intro ts c hp hs he ht
    simp only [Expr.text, Option.map_eq_some_iff] at ht
    obtain ⟨t, ht, rfl⟩ := ht
    simp only [Expr.evaluate] at he
    obtain ⟨⟨c1, r1⟩, h1, he⟩ := Res.bind_eq_ok.1 he
    have hg := ih t _ hp hs h1 ht
    have hc1 : c1 = .bitmask ∨ c1 = .enum := by
      cases c1 <;> first | exact .inl rfl | exact .inr rfl | cases he
    have h13 := rustLevel_handle md sc e c1 r1 h1 hc1
    rw [h13] at hg
    simp only [Expr.tree]
    cases info.isBitmask e with
    | false =>
      simp only [if_false, List.append_nil, Bool.false_eq_true]
      exact good_cast (hg.unary (by omega)) _
    | true =>
      simp only [if_true]
      have := good_cast (((hg.post (by omega)).field "bits").call.unary) (info.valueType e)
      rw [List.append_assoc t] at this
      exact this
  | lengthof e ih =>
    intro ts c hp hs he ht
    simp only [Expr.text, Option.map_eq_some_iff] at ht
    obtain ⟨t, ht, rfl⟩ := ht
    simp only [Expr.evaluate] at he
    obtain ⟨⟨c1, r1⟩, h1, he⟩ := Res.bind_eq_ok.1 he
    have hg := ih t _ hp hs.1 h1 ht
    have h13 : e.rustLevel = 13 := by
      rcases hs.2.1 with h | h
      · exact rustLevel_atom e h hs.2.2.1 hs.2.2.2
      · cases e <;> first | rfl | cases h
    have := readsPost_paren (good_cast (((hg.post (by omega)).field "len").call.unary) "u32")
    have happ : ([.lpar] ++ t ++ [.dot "len", .lpar, .rpar, .as "u32", .rpar] : List (Tok fo.F)) =
        [.lpar] ++ (t ++ [.dot "len"] ++ [.lpar, .rpar] ++ [.as "u32"]) ++ [.rpar] := by simp
    rw [happ]
    exact this.good _ _
  | numbits e ih =>
    intro ts c hp hs he ht
    simp only [Expr.text, Option.map_eq_some_iff] at ht
    obtain ⟨t, ht, rfl⟩ := ht
    simp only [Expr.evaluate] at he
    obtain ⟨⟨c1, r1⟩, h1, he⟩ := Res.bind_eq_ok.1 he
    have hg := ih t _ hp hs h1 ht
    have := readsPost_paren (good_cast ((readsPost_apply "zserio::numbits" hg).unary) "u32")
    have happ : ([.lpar, .func "zserio::numbits", .lpar] ++ t ++ [.rpar, .as "u32", .rpar] :
        List (Tok fo.F)) = [.lpar] ++ (([.func "zserio::numbits", .lpar] ++ t ++ [.rpar]) ++ [.as "u32"]) ++
        [.rpar] := by simp
    rw [happ]
    exact this.good _ _
  | plus e ih => intro ts c _ hs; exact hs.elim
  | compl e ih => intro ts c _ hs; exact hs.elim
  | neg e ih =>
    intro ts c hp hs he ht
    simp only [Expr.text, Option.map_eq_some_iff] at ht
    obtain ⟨t, ht, rfl⟩ := ht
    simp only [Expr.evaluate] at he
    obtain ⟨⟨c1, r1⟩, h1, he⟩ := Res.bind_eq_ok.1 he
    have hg := ih t _ hp.1 hs.1 h1 ht
    exact (hg.unary (rustLevel_unary e hp.2 hs.2.1 hs.2.2)).neg.good 12 _ (Nat.le_refl _)
  | not e ih =>
    intro ts c hp hs he ht
    simp only [Expr.text, Option.map_eq_some_iff] at ht
    obtain ⟨t, ht, rfl⟩ := ht
    simp only [Expr.evaluate] at he
    obtain ⟨⟨c1, r1⟩, h1, he⟩ := Res.bind_eq_ok.1 he
    have hg := ih t _ hp.1 hs.1 h1 ht
    exact (hg.unary (rustLevel_unary e hp.2 hs.2.1 hs.2.2)).not.good 12 _ (Nat.le_refl _)
  | cmp op a b iha ihb =>
    intro ts c hp hs he ht
    simp only [Expr.text, Option.bind_eq_some_iff, Option.map_eq_some_iff] at ht
    obtain ⟨t, ht, u, hu, rfl⟩ := ht
    simp only [Expr.evaluate] at he
    obtain ⟨⟨c1, r1⟩, h1, he⟩ := Res.bind_eq_ok.1 he
    obtain ⟨⟨c2, r2⟩, h2, he⟩ := Res.bind_eq_ok.1 he
    obtain ⟨pa, pb, la, lb⟩ := hp
    obtain ⟨sa, sb, ca, cb, ia, ib, hlt⟩ := hs
    have hga := iha t _ pa sa h1 ht
    have hgb := ihb u _ pb sb h2 hu
    have h6 : 6 ≤ (Expr.cmp op a b).level := by cases op <;> simp [Expr.level]
    have ra := rustLevel_cmp a (by omega) ia ca
    have rb := rustLevel_cmp b (by omega) ib cb
    refine good_bin (.cmp op) hga hgb (Nat.le_of_lt ra) rb (fun _ h => by omega) (fun hc => ?_)
    refine ⟨fun h => ?_, fun h => by cases h⟩
    cases h
    rw [hlt rfl] at hc
    cases hc
  | arith op a b iha ihb =>
    intro ts c hp hs he ht
    simp only [Expr.text, Option.bind_eq_some_iff] at ht
    obtain ⟨t, ht, u, hu, hts⟩ := ht
    have hev := he
    simp only [Expr.evaluate] at he
    obtain ⟨⟨c1, r1⟩, h1, he⟩ := Res.bind_eq_ok.1 he
    obtain ⟨⟨c2, r2⟩, h2, he⟩ := Res.bind_eq_ok.1 he
    obtain ⟨c3, h3, he⟩ := Res.bind_eq_ok.1 he
    cases he
    obtain ⟨pa, pb, la, lb⟩ := hp
    obtain ⟨sa, sb⟩ := hs
    have hga := iha t _ pa sa h1 ht
    have hgb := ihb u _ pb sb h2 hu
    have ia : a.isIsset = false := by
      cases hc : a.isIsset with
      | false => rfl
      | true =>
        obtain ⟨x, rfl⟩ := isset_bool md sc a hc c1 r1 h1
        cases c2 <;> cases h3
    have ib : b.isIsset = false := by
      cases hc : b.isIsset with
      | false => rfl
      | true =>
        obtain ⟨x, rfl⟩ := isset_bool md sc b hc c2 r2 h2
        cases c1 <;> cases h3
    have la := (rustLevel_arith a a b op ia).1 la
    have lb := (rustLevel_arith b a b op ib).2 lb
    have h13 : ∀ e : Expr fo.F, e.rustLevel ≤ 13 := by
      intro e
      cases e with
      | cmp op => cases op <;> simp [Expr.rustLevel, BinOp.prec]
      | arith op => cases op <;> simp [Expr.rustLevel, BinOp.prec]
      | bit op => cases op <;> simp [Expr.rustLevel, BinOp.prec]
      | logic op => cases op <;> simp [Expr.rustLevel, BinOp.prec]
      | _ => simp [Expr.rustLevel]
    have hbin : Good (castText (info.castLeft (.arith op a b)) t ++ [.op (.arith op)] ++
        castText (info.castRight (.arith op a b)) u)
        (.bin (.arith op) (castTree (info.castLeft (.arith op a b)) (a.tree md sc info))
          (castTree (info.castRight (.arith op a b)) (b.tree md sc info))) (BinOp.arith op).prec
        ((info.castRight (.arith op a b)).isNone && b.endsWithCast info.castRight) := by
      refine good_bin (.arith op) (good_castText _ hga (h13 a)) (good_castText _ hgb (h13 b)) la lb ?_ ?_
      · intro h; cases op <;> cases h
      · intro _; exact ⟨(fun h => by cases h), fun h => by cases h⟩
    simp only [Expr.tree, hev] at hts ⊢
    cases c3 with
    | str s =>
      cases op with
      | add => cases hts; exact (readsPost_format hga hgb).good _ _
      | _ => cases hts
    | _ => cases hts; exact hbin
  | bit op a b iha ihb =>
    intro ts c hp hs he ht
    simp only [Expr.text, Option.bind_eq_some_iff, Option.map_eq_some_iff] at ht
    obtain ⟨t, ht, u, hu, rfl⟩ := ht
    simp only [Expr.evaluate] at he
    obtain ⟨⟨c1, r1⟩, h1, he⟩ := Res.bind_eq_ok.1 he
    obtain ⟨⟨c2, r2⟩, h2, he⟩ := Res.bind_eq_ok.1 he
    obtain ⟨⟨c3, r3⟩, h3, he⟩ := Res.bind_eq_ok.1 he
    obtain ⟨pa, pb, la, lb⟩ := hp
    obtain ⟨sa, sb, hshl⟩ := hs
    have hga := iha t _ pa sa h1 ht
    have hgb := ihb u _ pb sb h2 hu
    have na : ∀ x, c1 ≠ .bool x := by rintro x rfl; cases c2 <;> cases h3
    have nb : ∀ x, c2 ≠ .bool x := by rintro x rfl; cases c1 <;> cases h3
    have ia : a.isIsset = false := by
      cases hc : a.isIsset with
      | false => rfl
      | true => obtain ⟨x, hx⟩ := isset_bool md sc a hc c1 r1 h1; exact absurd hx (na x)
    have ib : b.isIsset = false := by
      cases hc : b.isIsset with
      | false => rfl
      | true => obtain ⟨x, hx⟩ := isset_bool md sc b hc c2 r2 h2; exact absurd hx (nb x)
    have ca : a.isCmp = false := by
      cases hc : a.isCmp with
      | false => rfl
      | true => obtain ⟨x, hx⟩ := cmp_bool md sc a hc c1 r1 h1; exact absurd hx (na x)
    have cb : b.isCmp = false := by
      cases hc : b.isCmp with
      | false => rfl
      | true => obtain ⟨x, hx⟩ := cmp_bool md sc b hc c2 r2 h2; exact absurd hx (nb x)
    refine good_bin (.bit op) hga hgb ((rustLevel_bit a a b op ia ca).1 la)
      ((rustLevel_bit b a b op ib cb).2 lb) ?_ (fun hc => ⟨(fun h => by cases h), fun h => ?_⟩)
    · intro h; cases op <;> cases h
    · cases h
      rw [hshl rfl] at hc
      cases hc
  | logic op a b iha ihb =>
    intro ts c hp hs he ht
    simp only [Expr.text, Option.bind_eq_some_iff, Option.map_eq_some_iff] at ht
    obtain ⟨t, ht, u, hu, rfl⟩ := ht
    simp only [Expr.evaluate] at he
    obtain ⟨⟨c1, r1⟩, h1, he⟩ := Res.bind_eq_ok.1 he
    obtain ⟨⟨c2, r2⟩, h2, he⟩ := Res.bind_eq_ok.1 he
    obtain ⟨pa, pb, la, lb⟩ := hp
    have hga := iha t _ pa hs.1 h1 ht
    have hgb := ihb u _ pb hs.2 h2 hu
    refine good_bin (.logic op) hga hgb ((rustLevel_logic a a b op).1 la)
      ((rustLevel_logic b a b op).2 lb) ?_ (fun hc => ⟨(fun h => by cases h), fun h => by cases h⟩)
    intro h; cases op <;> cases h
  | tern c a b ihc iha ihb =>
    intro ts cv hp hs he ht
    simp only [Expr.text, Option.bind_eq_some_iff, Option.map_eq_some_iff] at ht
    obtain ⟨t, ht, u, hu, v, hv, rfl⟩ := ht
    simp only [Expr.evaluate] at he
    obtain ⟨⟨c1, r1⟩, h1, he⟩ := Res.bind_eq_ok.1 he
    obtain ⟨⟨c2, r2⟩, h2, he⟩ := Res.bind_eq_ok.1 he
    obtain ⟨⟨c3, r3⟩, h3, he⟩ := Res.bind_eq_ok.1 he
    obtain ⟨pc, pa, pb, _⟩ := hp
    obtain ⟨sc', sa, sb⟩ := hs
    exact (readsPost_ite (ihc t _ pc sc' h1 ht) (iha u _ pa sa h2 hu) (ihb v _ pb sb h3 hv)).good _ _

end Text
end Zs
