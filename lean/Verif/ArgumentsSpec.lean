import Verif.Arguments

/-!
# Specification of the passing of type arguments (C64)

What the emitted literal and assignments do in Rust.  An object is a function from the names of its members to
their values.
-/

namespace Zs.Spec

variable {α β : Type}

/-- `Type { .. }` is accepted by the Rust compiler: the names are different and are members, and all members are
named unless `..Default::default()` follows. -/
def LitBuilds (members : List String) (l : StructLit α) : Prop :=
  (l.entries.map Prod.fst).Nodup ∧ (∀ e ∈ l.entries, e.1 ∈ members) ∧
    (l.rest = true ∨ ∀ m ∈ members, ∃ e ∈ l.entries, e.1 = m)

/-- The emitted code that makes an object is accepted by the Rust compiler. -/
def MadeBuilds (members : List String) : Made α → Prop
  | .default => True
  | .literal l sets => LitBuilds members l ∧ ∀ s ∈ sets, s.1 ∈ members

/-- The value of a literal: what it says, and the default for all other members. -/
def litObject (dflt : String → β) (value : α → β) (l : StructLit α) : String → β :=
  fun m => match l.entries.find? (fun e => e.1 == m) with
    | some e => value e.2
    | none => dflt m

/-- `object.name = value;` -/
def setMember (o : String → β) (name : String) (v : β) : String → β := fun m => if m = name then v else o m

/-- The object that the emitted code makes. -/
def madeObject (dflt : String → β) (value : α → β) : Made α → String → β
  | .default => dflt
  | .literal l sets => sets.foldl (fun o s => setMember o s.1 (value s.2)) (litObject dflt value l)

/-- The assertions before writing hold for an object. -/
def ChecksHold (value : α → β) (o : String → β) (checks : List (String × α)) : Prop :=
  ∀ c ∈ checks, o c.1 = value c.2

end Zs.Spec
