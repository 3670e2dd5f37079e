import Verif.Runtime
import Verif.TopLevel

/-!
# Model of `ExternType::from_object`
-/

namespace Zs

/-- `extern_type.rs` lines 16-33: `ExternType::from_object`.  The object is represented by its
`zserio_bitsize` and its `zserio_write`.  `md`: `debug_assert_eq!` is there in debug builds only, together with
the conversion of the length that it contains. -/
def ExternType.fromObject (md : Mode) (bitsize : Nat → Res Nat) (write : Writer → Res Writer) :
    Res ExternType := do
  let bitSize ← bitsize 0
  if 2 ^ 32 ≤ bitSize then .err .dataDoesNotFit else do
    let dataBlob ← toBytes write
    match md with
    | .debug =>
      if 2 ^ 32 ≤ dataBlob.length then .err .dataDoesNotFit
      else if dataBlob.length ≠ (bitSize + 7) / 8 then .panic
      else pure ⟨bitSize, dataBlob⟩
    | .release => pure ⟨bitSize, dataBlob⟩

end Zs
