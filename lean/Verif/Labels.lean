import Verif.ExprType

/-!
# Model of the labels of choices

`crates/zserio-rs-build/src/internal/ast/zchoice.rs` completes and evaluates the labels of the cases,
`generator/zchoice.rs` writes them down as the patterns of a `match`.  File names are relative to
`crates/zserio-rs-build/src/internal/`.
-/

namespace Zs

variable {fo : FloatOps}

/-- `ast/zchoice.rs` lines 100-118: the name of the type of the parameter that the selector is.
`none`: the selector has no symbol or one that is no parameter; the code panics.  `param` gives the name
of the type of each parameter of the choice.  Simplified: `c ? a : b` takes over the symbol of a branch,
which may be a parameter; its text is no name either way (`selectorText`). -/
def selectorType {F : Type} (param : String → Option String) : Expr F → Option String
  | .ident x => param x
  | _ => none

/-- `ast/zchoice.rs` lines 77-151: `add_enumeration_type_prefix_to_choice_cases` on one label: a label
that is a name gets the name of the type of the selector before it. -/
def prefixLabel {F : Type} (param : String → Option String) (sel : Expr F) : Expr F → Res (Expr F)
  | .ident a => match selectorType param sel with
    | some t => .ok (.dot (.ident t) a)
    | none => .panic
  | e => .ok e

/-- `generator/zchoice.rs` lines 142-143: the text of the selector's own token, which follows `self.`.
`none`: it is an operator, a keyword or a literal, not a name (`visitor.rs` lines 565-931). -/
def selectorText {F : Type} : Expr F → Option String
  | .ident x => some x
  | _ => none

/-- One label: completed, evaluated (`ast/zchoice.rs` lines 60-62) and written (`generator/zchoice.rs`
lines 150-156). -/
def labelText (md : Mode) (sc : TScope) (param : String → Option String) (sel e : Expr fo.F) :
    Res (List (Tok fo.F)) := do
  let l ← prefixLabel param sel e
  let _ ← l.evaluate md sc.erase
  let _ ← l.native md sc
  match l.text md sc.erase (textInfo md sc) with
  | some ts => .ok ts
  | none => .panic

/-- `generator/zchoice.rs` line 157: `case_expressions.join(" | ")`. -/
def joinBar {F : Type} : List (List (Tok F)) → List (Tok F)
  | [] => []
  | [t] => t
  | t :: ts => t ++ [.op (.bit .or)] ++ joinBar ts

/-- The labels of one case. -/
def armText (md : Mode) (sc : TScope) (param : String → Option String) (sel : Expr fo.F)
    (labels : List (Expr fo.F)) : Res (List (Tok fo.F)) := do
  let ts ← labels.mapM (labelText md sc param sel)
  .ok (joinBar ts)

/-- `ast/zchoice.rs` lines 33-75 and `generator/zchoice.rs` lines 134-208: what follows `self.` behind
`match`, and the text before each `=>`.  The last arm is `_ => ()`, as there never is a default case
(C60).  Simplified: the steps of one label are not interleaved with those of the others, so the first
panic may be another one. -/
def labelMatch (md : Mode) (sc : TScope) (param : String → Option String) (sel : Expr fo.F)
    (cases : List (List (Expr fo.F))) : Res (Option String × List (List (Tok fo.F))) := do
  let _ ← sel.evaluate md sc.erase
  let arms ← cases.mapM (armText md sc param sel)
  .ok (selectorText sel, arms)

end Zs
