import Verif.Expr

/-!
# Model of the values of enumeration and bitmask items

File names are relative to `crates/zserio-rs-build/src/internal/`.
-/

namespace Zs

variable {fo : FloatOps}

/-- `generator/zenum.rs` lines 41-60 (and the same computation again in lines 70-87), on the expressions
evaluated by `ast/zenum.rs` lines 24-32: the values given to the items.  `next` is the variable
`enum_value`, an `i32`; whether an expression is resolved is not looked at. -/
def enumItemValues (md : Mode) (sc : EScope fo.F) : Int → List (Option (Expr fo.F)) → Res (List Int)
  | _, [] => .ok []
  | next, item :: rest => do
    let v ← (match item with
      | none => .ok next
      | some e => do
        let (c, _) ← e.evaluate md sc
        match c with
        | .int v => pure v
        | _ => .panic)
    let next ← ArithOp.compile .add md v 1
    let vs ← enumItemValues md sc next rest
    pure (v :: vs)

/-- `ast/zbitmask.rs` lines 38-66: `evaluate`, the values given to the items.  `next` is the variable
`bitmask_value`, a `u64`. -/
def bitmaskItemValues (md : Mode) (sc : EScope fo.F) : Nat → List (Option (Expr fo.F)) → Res (List Nat)
  | _, [] => .ok []
  | next, item :: rest => do
    let v ← (match item with
      | none => .ok next
      | some e => do
        let (c, _) ← e.evaluate md sc
        match c with
        | .int v => if asU64 v < next ∧ asU64 v ≠ 0 then .panic else pure (asU64 v)
        | _ => .panic)
    let vs ← bitmaskItemValues md sc (if v = 0 then 1 else v * 2 % 2 ^ 64) rest
    pure (v :: vs)

end Zs
