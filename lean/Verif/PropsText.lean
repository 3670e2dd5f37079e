import Verif.ExprTextLemmas
import Verif.PropsCompiler

/-!
# Properties of the text of expressions (C47)

The statements are in English in `properties.jsonl`; each theorem below repeats what it says.
-/

namespace Zs

variable {fo : FloatOps}

/-- C47 (partial): Rust groups the text of an expression as the schema does, for every expression that
the parser can build and that passes the type check (evaluation), whatever casts are inserted.  Missing:
what `Expr.Separable` excludes, see the violations. -/
theorem C47_grouping_partial (md : Mode) (sc : EScope fo.F) (info : TextInfo fo.F) (e : Expr fo.F)
    (hparsed : e.Parsed) (hsep : e.Separable info) (c : CVal fo.F × Bool)
    (heval : e.evaluate md sc = .ok c) (ts : List (Tok fo.F)) (ht : e.text md sc info = some ts) :
    ReadsAs ts (e.tree md sc info) := by
  obtain ⟨n, hn⟩ := (text_good md sc info e ts c hparsed hsep heval ht).closed [] trivial
  exact ⟨n, fun m hm => by simpa using hn m hm⟩

/-- No casts; every `valueof` is a `u8`. -/
def noCasts (F : Type) : TextInfo F := ⟨fun _ => none, fun _ => none, fun _ => "u8", fun _ => false⟩

/-- A scope with a bitmask `m`, an enum `c`, integers `x` and `y` and a boolean `b`. -/
def someNames (F : Type) : EScope F where
  ident := fun n =>
    if n = "m" then some .bitmask else if n = "c" then some .enum
    else if n = "x" ∨ n = "y" then some .integer else if n = "b" then some .bool else none
  member := fun _ _ => none
  result := fun _ => none
  hasItem := fun _ _ => false

-- `b && isset(m, x) ? x & y + 1 << 2 | valueof(c) : -4`
example : ∃ e : Expr tenths.F, e.Parsed ∧ e.Separable (noCasts _) ∧
    (∃ c, e.evaluate .debug (someNames _) = .ok c) ∧
    ∃ ts, e.text .debug (someNames _) (noCasts _) = some ts := by
  refine ⟨.tern (.logic .and (.ident "b") (.isset (.ident "m") (.ident "x")))
    (.bit .or (.bit .and (.ident "x") (.bit .shl (.arith .add (.ident "y") (.intLit 1)) (.intLit 2)))
      (.valueof (.ident "c"))) (.neg (.intLit 4)), ?_, ?_, ⟨_, rfl⟩, _, rfl⟩
  · simp [Expr.Parsed, Expr.level]
  · simp [Expr.Separable, Expr.isIsset, Expr.isValueof, Expr.endsWithCast]

/-- The value is an integer or a bitmask, for which a condition is emitted with `!= 0`. -/
def CVal.isNumber {F : Type} : CVal F → Bool
  | .int _ | .bitmask => true
  | _ => false

/-- C47 (partial): the same for conditions, where `!= 0` is added behind an integer or bitmask. -/
theorem C47_conditions_partial (md : Mode) (sc : EScope fo.F) (info : TextInfo fo.F) (e : Expr fo.F)
    (hparsed : e.Parsed) (hsep : e.Separable info) (c : CVal fo.F) (r : Bool)
    (heval : e.evaluate md sc = .ok (c, r)) (hc : c.isNumber = true) (ts : List (Tok fo.F))
    (ht : e.text md sc info = some ts) :
    ReadsAs (ts ++ [.op (.cmp .ne), .atom (.int 0)])
      (.bin (.cmp .ne) (e.tree md sc info) (.atom (.int 0))) := by
  have hg := text_good md sc info e ts _ hparsed hsep heval ht
  have hb : ∀ b, c ≠ .bool b := by rintro b rfl; cases hc
  have hlevel : 4 < e.rustLevel := by
    cases e with
    | isset e x => obtain ⟨b, h⟩ := isset_bool md sc _ rfl c r heval; exact absurd h (hb b)
    | cmp op a b => obtain ⟨b, h⟩ := cmp_bool md sc _ rfl c r heval; exact absurd h (hb b)
    | arith op a b => cases op <;> simp [Expr.rustLevel, BinOp.prec]
    | bit op a b => cases op <;> simp [Expr.rustLevel, BinOp.prec]
    | logic op a b =>
      simp only [Expr.evaluate] at heval
      obtain ⟨⟨c1, r1⟩, _, heval⟩ := Res.bind_eq_ok.1 heval
      obtain ⟨⟨c2, r2⟩, _, heval⟩ := Res.bind_eq_ok.1 heval
      obtain ⟨c3, h3, heval⟩ := Res.bind_eq_ok.1 heval
      cases heval
      cases c1 <;> cases c2 <;> simp only [evalLogic] at h3 <;> cases h3
      exact absurd rfl (hb _)
    | _ => simp [Expr.rustLevel]
  have := good_bin (.cmp .ne) hg ((readsPost_atom (.int 0)).good 13 false) (Nat.le_of_lt hlevel)
    (by decide) (fun _ h => by omega) (fun _ => ⟨(fun h => by cases h), fun h => by cases h⟩)
  obtain ⟨n, hn⟩ := this.closed [] trivial
  exact ⟨n, fun m hm => by simpa using hn m hm⟩

-- `if x & 4`
example : (Expr.bit .and (.ident "x") (.intLit 4) : Expr tenths.F).evaluate .debug (someNames _) =
    .ok (.int 0, false) := by rfl

/-- C47 (partial): the same for arguments of parameterised types, where `.clone()` and `as T` are added
behind the text, if the text is as good as in parentheses (a name, a field, a call, a number).  Missing:
operations, see `C47_arguments_violated`. -/
theorem C47_arguments_partial (md : Mode) (sc : EScope fo.F) (info : TextInfo fo.F) (cast : Option String)
    (e : Expr fo.F) (hparsed : e.Parsed) (hsep : e.Separable info) (c : CVal fo.F) (r : Bool)
    (heval : e.evaluate md sc = .ok (c, r)) (hlevel : 12 ≤ e.level) (hi : e.isIsset = false)
    (hv : e.isValueof = false) (ts : List (Tok fo.F))
    (ht : argumentText md sc info cast e = some ts) :
    let t := if r then e.tree md sc info else .call (.field (e.tree md sc info) "clone")
    ReadsAs ts (match cast with
      | none => t
      | some ty => .cast t ty) := by
  simp only [argumentText, Option.map_eq_some_iff, heval] at ht
  obtain ⟨u, hu, rfl⟩ := ht
  have hg := text_good md sc info e u _ hparsed hsep heval hu
  have h13 := rustLevel_atom e hlevel hi hv
  have hp := hg.post (by omega)
  have hc := (hp.field "clone").call
  have read : ∀ ts (t : RExpr fo.F) L ec, Good ts t L ec → ReadsAs ts t := by
    intro ts t L ec h
    obtain ⟨n, hn⟩ := h.closed [] trivial
    exact ⟨n, fun m hm => by simpa using hn m hm⟩
  cases r <;> cases cast <;> simp only [List.append_nil, if_true, if_false, Bool.false_eq_true]
  · rw [List.append_assoc] at hc
    exact read _ _ 13 false (hc.good _ _)
  · rw [List.append_assoc] at hc
    exact read _ _ _ _ (good_cast hc.unary _)
  · exact read _ _ 13 false (hp.good _ _)
  · exact read _ _ _ _ (good_cast hp.unary _)

example : argumentText .debug (someNames tenths.F) (noCasts _) (some "u32") (.ident "x") =
    some [.atom (.name "x"), .dot "clone", .lpar, .rpar, .as "u32"] := rfl

/-- C47 is violated by arguments: `x + y`, cast to `u32`, is emitted as `x + y.clone() as u32`, where
clone and cast belong to `y` alone. -/
theorem C47_arguments_violated :
    ∃ ts, argumentText .debug (someNames fo.F) (noCasts fo.F) (some "u32")
        (.arith .add (.ident "x") (.ident "y")) = some ts ∧
      ReadsAs ts (.bin (.arith .add) (.atom (.name "x"))
        (.cast (.call (.field (.atom (.name "y")) "clone")) "u32")) := by
  refine ⟨_, rfl, 20, fun m hm => ?_⟩
  obtain ⟨k, rfl⟩ : ∃ k, m = k + 20 := ⟨m - 20, by omega⟩
  rfl

/-- C47 is violated by `!isset(m, x)`: the text `!m & (x) != 0` negates the bitmask instead of the
result. -/
theorem C47_not_isset_violated :
    let e : Expr fo.F := .not (.isset (.ident "m") (.ident "x"))
    let m : RExpr fo.F := .atom (.name "m")
    let x : RExpr fo.F := .paren (.atom (.name "x"))
    let zero : RExpr fo.F := .atom (.int 0)
    e.Parsed ∧ e.evaluate .debug (someNames _) = .ok (.bool true, false) ∧
    e.tree .debug (someNames _) (noCasts _) = .not (.bin (.cmp .ne) (.bin (.bit .and) m x) zero) ∧
    ∃ ts, e.text .debug (someNames _) (noCasts _) = some ts ∧
      ReadsAs ts (.bin (.cmp .ne) (.bin (.bit .and) (.not m) x) zero) := by
  refine ⟨by simp [Expr.Parsed, Expr.level], rfl, rfl, _, rfl, 20, fun m hm => ?_⟩
  obtain ⟨k, rfl⟩ : ∃ k, m = k + 20 := ⟨m - 20, by omega⟩
  rfl

/-- ... which is not the same: with the bits 1 set in `m` and the bits 3 asked for, `isset` holds and
its negation does not, but the text is true. -/
example : ¬ (¬ ((1 &&& 3 : Nat) ≠ 0)) ∧ ((~~~ (1 : BitVec 8)) &&& 3) ≠ 0 := by decide

/-- C47 is violated by `-valueof(c)`: the text `-c as u8` negates before it casts. -/
theorem C47_neg_valueof_violated :
    let e : Expr fo.F := .neg (.valueof (.ident "c"))
    e.Parsed ∧ e.evaluate .debug (someNames _) = .ok (.int 0, false) ∧
    e.tree .debug (someNames _) (noCasts _) = .neg (.cast (.atom (.name "c")) "u8") ∧
    ∃ ts, e.text .debug (someNames _) (noCasts _) = some ts ∧
      ReadsAs ts (.cast (.neg (.atom (.name "c"))) "u8") := by
  refine ⟨by simp [Expr.Parsed, Expr.level], rfl, rfl, _, rfl, 20, fun m hm => ?_⟩
  obtain ⟨k, rfl⟩ : ∃ k, m = k + 20 := ⟨m - 20, by omega⟩
  rfl

/-- C47 is violated by expressions that pass the type check and whose text is no Rust: `valueof(c) < 5`
(the `<` starts generic arguments), `b == b == b` (comparisons cannot be chained), `isset(m, x) == b`,
`+x` and `~x`. -/
theorem C47_rejected_violated (e : Expr fo.F)
    (h : e = .cmp .lt (.valueof (.ident "c")) (.intLit 5) ∨
      e = .cmp .eq (.cmp .eq (.ident "b") (.ident "b")) (.ident "b") ∨
      e = .cmp .eq (.isset (.ident "m") (.ident "x")) (.ident "b") ∨
      e = .plus (.ident "x") ∨ e = .compl (.ident "x")) :
    e.Parsed ∧ (∃ c, e.evaluate .debug (someNames _) = .ok c) ∧
    ∃ ts, e.text .debug (someNames _) (noCasts _) = some ts ∧ Rejected ts := by
  rcases h with rfl | rfl | rfl | rfl | rfl
  all_goals
    refine ⟨by simp [Expr.Parsed, Expr.level], ⟨_, rfl⟩, _, rfl, fun n t => ?_⟩
    match n with
    | 0 | 1 | 2 | 3 | 4 | 5 | 6 | 7 | 8 => intro h; cases h
    | n + 9 => intro h; cases h

end Zs
