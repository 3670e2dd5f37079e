import Verif.Schema

/-!
# Declarations that refer to each other, also in cycles

`Verif/Schema.lean` gives the meaning of generated code for schemas that are finite trees.  Here a schema is
a set of declarations, whose fields refer to declarations by name (a number), possibly in cycles.

The functions generated for a declaration call the functions of the declarations it refers to.  How they
behave when at most `n` such calls are active at a time is the behaviour of the tree that results from
replacing references `n` times; `below` stands for whatever happens in still deeper calls
(`Zs.unfoldDecl`).

Only references that matter for the recursion need to be references: a type that is not part of a cycle can be
written in place.
-/

namespace Zs

mutual
/-- A type as in `Zs.Ty`, or a reference to a declaration (`ast/type_reference.rs`, not builtin). -/
inductive DTy where
  | ref (i : Nat)
  | scalar (s : Scalar)
  | enum (base : Scalar) (items : List (Option Int))
  | bitmask (base : Scalar) (first : Int)
  | struct (params : List Val) (fields : DFields)
  | choice (params : List Val) (selector : List Val → Val) (cases : DCases)
  | union (params : List Val) (members : DFields)
/-- A list of fields. -/
inductive DFields where
  | nil
  | cons (info : FieldInfo) (ty : DTy) (rest : DFields)
/-- A list of cases: with or without a field. -/
inductive DCases where
  | nil
  | field (labels : List Val) (info : FieldInfo) (ty : DTy) (rest : DCases)
  | empty (labels : List Val) (rest : DCases)
end

mutual
/-- The references are replaced: `generator/decode.rs` lines 30-43, `encode.rs` lines 26-36 and `bitsize.rs` lines
22-35 emit calls of the functions of the type that is referred to. -/
def DTy.close (below : Nat → Ty) : DTy → Ty
  | .ref i => below i
  | .scalar s => .scalar s
  | .enum base items => .enum base items
  | .bitmask base first => .bitmask base first
  | .struct params fields => .struct params (fields.close below)
  | .choice params sel cases => .choice params sel (cases.close below)
  | .union params members => .union params (members.close below)
def DFields.close (below : Nat → Ty) : DFields → Fields
  | .nil => .nil
  | .cons info ty rest => .cons info (ty.close below) (rest.close below)
def DCases.close (below : Nat → Ty) : DCases → Cases
  | .nil => .nil
  | .field labels info ty rest => .field labels info (ty.close below) (rest.close below)
  | .empty labels rest => .empty labels (rest.close below)
end

/-- The declarations of a schema (`ast/package.rs`), numbered. -/
abbrev Decls := Nat → DTy

/-- The declaration `i` when at most `n` calls of functions of declarations are active at a time; `below` is what
deeper calls do. -/
def unfoldDecl (d : Decls) (below : Nat → Ty) : Nat → Nat → Ty
  | 0, i => below i
  | n + 1, i => (d i).close (unfoldDecl d below n)

/-! ## Rust types of members -/

/-- The Rust type of a member: that of a zserio type, in `Vec` and `Option`. -/
inductive MemberTy where
  | plain (t : DTy)
  | vec (t : MemberTy)
  | option (t : MemberTy)

/-- `generator/packed_contexts.rs` lines 58-68: `full_rust_type`; for unions the same in `generator/zunion.rs` lines
14-30. -/
def fullMemberType (info : FieldInfo) (t : DTy) : MemberTy :=
  let t := if info.array.isSome then MemberTy.vec (.plain t) else .plain t
  if info.optional then .option t else t

/-- The members generated for fields (`generator/zstruct.rs` lines 72-74, `generator/zunion.rs` lines 114-116).  The
members for parameters are left out; they cannot be of the type that is declared without ending in an endless
chain of parameters. -/
def DFields.members : DFields → List MemberTy
  | .nil => []
  | .cons info ty rest => fullMemberType info ty :: rest.members

/-- The members generated for the fields of a choice (`generator/zchoice.rs` lines 30-52 and 79-82). -/
def DCases.members : DCases → List MemberTy
  | .nil => []
  | .field _ info ty rest => fullMemberType info ty :: rest.members
  | .empty _ rest => rest.members

/-- The members of the Rust structure generated for a type. -/
def DTy.members : DTy → List MemberTy
  | .struct _ fields => fields.members
  | .union _ members => members.members
  | .choice _ _ cases => cases.members
  | _ => []

/-! ## Creation of packing contexts -/

/-- `generator/packed_contexts.rs` lines 124-136: nothing is created for arrays, and for builtin types that are not
packed (`is_packable` is false for offset fields, lines 79-81). -/
def FieldInfo.noContext (info : FieldInfo) : DTy → Bool
  | .scalar s => info.array.isSome || info.isOffsetField || !s.isPackable
  | _ => info.array.isSome

mutual
/-- `zserio_create_packing_context` (`generator/packed_contexts.rs` lines 118-142, called by `zstruct.rs` lines 84-89,
`zchoice.rs` lines 92-97; empty for unions, `zunion.rs` lines 128-130; for enumerations and bitmasks `zenum.rs` lines
104-108 and `zbitmask.rs` lines 71-75), with at most `fuel` active calls; `none` if they do not suffice.  A reference
is a call of the function of the declaration. -/
def DTy.createNode (call : Nat → Option Node) : DTy → Option Node
  | .ref i => call i
  | .scalar _ => some (.mk [] (some DeltaContext.new))
  | .enum _ _ => some (.mk [.mk [] (some DeltaContext.new)] none)
  | .bitmask _ _ => some (.mk [.mk [] (some DeltaContext.new)] (some DeltaContext.new))
  | .struct _ fields => do
    let cs ← fields.createNodes call
    some (.mk cs none)
  | .choice _ _ cases => do
    let cs ← cases.createNodes call
    some (.mk cs none)
  | .union _ _ => some Node.new
def DFields.createNodes (call : Nat → Option Node) : DFields → Option (List Node)
  | .nil => some []
  | .cons info ty rest =>
    (if info.noContext ty then some Node.new else ty.createNode call).bind fun n =>
      (rest.createNodes call).bind fun ns => some (n :: ns)
def DCases.createNodes (call : Nat → Option Node) : DCases → Option (List Node)
  | .nil => some []
  | .field _ info ty rest =>
    (if info.noContext ty then some Node.new else ty.createNode call).bind fun n =>
      (rest.createNodes call).bind fun ns => some (n :: ns)
  | .empty _ rest => rest.createNodes call
end

/-- The packing contexts of a declaration, with at most `fuel` active calls. -/
def createDecl (d : Decls) : Nat → Nat → Option Node
  | 0, _ => none
  | fuel + 1, i => (d i).createNode (createDecl d fuel)

end Zs
