import Verif.Symbols
import Verif.VisitSpec

/-!
# What a representation says

How the data structures of the compiler are read: which operand is the left one, which field holds the condition.
`VisitSpec.lean` says what a declaration says; here is what its representation says, in the same terms.
-/

namespace Zs.Spec

open Src

/-- The binary operator of a token. -/
def tokenBin : Ast.Tok → Option BinOp
  | .multiply => some .mul | .divide => some .div | .modulo => some .mod | .plus => some .add
  | .minus => some .sub | .lshift => some .shl | .rshift => some .shr | .lt => some .lt | .le => some .le
  | .gt => some .gt | .ge => some .ge | .eq => some .eq | .ne => some .ne | .and => some .band
  | .xor => some .bxor | .or => some .bor | .logicalAnd => some .land | .logicalOr => some .lor
  | _ => none

/-- The unary operator of a token. -/
def tokenUn : Ast.Tok → Option UnOp
  | .plus => some .plus | .minus => some .minus | .bang => some .bang | .tilde => some .tilde
  | _ => none

variable {F : Type}

/-- The expression of a node.  The name after a dot stands in a node of its own kind, flagged so that it is not
looked up among the names of the file. -/
def readExp : Ast.Node F → Option Exp
  | .mk .lparen _ _ _ _ _ [a] => (readExp a).map .paren
  | .mk .rparen _ _ _ _ _ [a] => (readExp a).map .call
  | .mk .lbracket _ _ _ _ _ [a, b] => do return .elem (← readExp a) (← readExp b)
  | .mk .dot _ _ _ _ _ [a, .mk .member name true _ _ _ []] => do return .dot (← readExp a) (String.ofList name)
  | .mk .isset _ _ _ _ _ [a, b] => do return .isset (← readExp a) (← readExp b)
  | .mk .lengthof _ _ _ _ _ [a] => (readExp a).map .lengthof
  | .mk .valueof _ _ _ _ _ [a] => (readExp a).map .valueof
  | .mk .numbits _ _ _ _ _ [a] => (readExp a).map .numbits
  | .mk .questionmark _ _ _ _ _ [a, b, c] => do return .ternary (← readExp a) (← readExp b) (← readExp c)
  | .mk .index _ _ _ _ _ [] => some .index
  | .mk .id name _ _ _ _ [] => some (.id (String.ofList name))
  | .mk (.literal k) text _ _ _ _ [] => some (.lit k text)
  | .mk t _ _ _ _ _ [a] => do return .unary (← tokenUn t) (← readExp a)
  | .mk t _ _ _ _ _ [a, b] => do return .binary (← tokenBin t) (← readExp a) (← readExp b)
  | _ => none

/-- All of a list, or nothing. -/
def readList {α β : Type} (f : α → Option β) : List α → Option (List β)
  | [] => some []
  | a :: as => do return (← f a) :: (← readList f as)

/-- What may be missing. -/
def readOption {α β : Type} (f : α → Option β) : Option α → Option (Option β)
  | none => some none
  | some a => do return some (← f a)

/-- A qualified name: the package, then the name. -/
def qualified (package : List String) (name : String) (args : List Ty) : Ty :=
  match package with
  | [] => .named name [] args
  | p :: ps => .named p (ps ++ [name]) args

/-- The type of a reference, without arguments: `int` and `bit` have a number of bits, other builtin types and
names do not. -/
def readTy : Ast.TypeRef F → Option Ty
  | .mk true [] name bits [] _ _ =>
    if bits = 0 then some (.builtin name)
    else if name = "int" then some (.fixedBits true bits)
    else if name = "bit" then some (.fixedBits false bits)
    else none
  | .mk false package name 0 args _ _ => do return qualified package name (← readTys args)
  | _ => none
where
  readTys : List (Ast.TypeRef F) → Option (List Ty)
    | [] => some []
    | t :: ts => do return (← readTy t) :: (← readTys ts)

/-- The arguments of a reference. -/
def readArgs : Ast.TypeRef F → Option Args
  | .mk _ _ _ _ _ [] none => some .none
  | .mk _ _ _ _ _ (a :: as) none => do
    return .args (.expr (← readExp a)) (← readList (fun n => do return .expr (← readExp n)) as)
  | .mk _ _ _ _ _ [] (some l) => do return .length (← readExp l)
  | _ => none

/-- A type with arguments. -/
def readInst (t : Ast.TypeRef F) : Option Inst := do return ⟨← readTy t, ← readArgs t⟩

/-- An array. -/
def readArray (a : Ast.Array F) : Option ArraySays := do
  return { packed := a.packed, implicit_ := a.implicit_, length := ← readOption readExp a.length }

/-- A field; nothing in the representation says `extend`. -/
def readField (f : Ast.Field F) : Option FieldSays := do
  return {
    name := f.name
    type := ← readInst f.type
    array := ← readOption readArray f.array
    extended := false
    optional := f.optional
    align := f.alignment
    offset := ← readOption readExp f.offset
    initializer := ← readOption readExp f.initializer
    clause := ← readOption readExp f.clause
    constraint := ← readOption readExp f.constraint }

/-- A parameter. -/
def readParam (p : Ast.Param F) : Option ParamSays := do return ⟨p.name, ← readTy p.type⟩

/-- A function. -/
def readFunc (f : Ast.Func F) : Option FuncSays := do
  return { name := f.name, type := ← readTy f.returnType, body := ← readExp f.result }

/-- A structure. -/
def readStruct (s : Ast.Struct F) : Option RecordSays := do
  return { name := s.name, templates := s.templates, params := ← readList readParam s.params,
           fields := ← readList readField s.fields, functions := ← readList readFunc s.functions }

/-- A union. -/
def readUnion (u : Ast.Union F) : Option RecordSays := do
  return { name := u.name, templates := u.templates, params := ← readList readParam u.params,
           fields := ← readList readField u.fields, functions := ← readList readFunc u.functions }

/-- A case. -/
def readCase (c : Ast.Case F) : Option CaseSays := do
  return { labels := ← readList readExp c.conditions, field := ← readOption readField c.field }

/-- A choice. -/
def readChoice (c : Ast.Choice F) : Option ChoiceSays := do
  return { name := c.name, templates := c.templates, params := ← readList readParam c.params,
           selector := ← readExp c.selector, cases := ← readList readCase c.cases,
           default_ := ← readOption (fun d => readOption readField d.field) c.default_,
           functions := ← readList readFunc c.functions }

/-- An item of an enumeration; nothing in the representation says `deprecated` or `removed`. -/
def readItem (i : Ast.Item F) : Option Item := do
  return { mark := .none, name := i.name, value := ← readOption readExp i.value }

/-- An enumeration. -/
def readEnum (e : Ast.Enum F) : Option EnumSays := do
  return { name := e.name, type := ← readInst e.type, items := ← readList readItem e.items }

/-- A bitmask. -/
def readBitmask (b : Ast.Bitmask F) : Option BitmaskSays := do
  return { name := b.name, type := ← readInst b.type,
           values := ← readList (fun v => do return (v.name, ← readOption readExp v.value)) b.values }

/-- A constant. -/
def readConst (c : Ast.Const F) : Option ConstSays := do
  return { name := c.name, type := ← readInst c.type, value := ← readExp c.value }

/-- A subtype or an instantiation. -/
def readAlias (a : Ast.Alias F) : Option ParamSays := do return ⟨a.name, ← readTy a.type⟩

/-! ## Named declarations -/

/-- What a name stands for. -/
inductive Declared where
  | struct (s : RecordSays)
  | choice (c : ChoiceSays)
  | union (u : RecordSays)
  | enum (e : EnumSays)
  | bitmask (b : BitmaskSays)
  | const (c : ConstSays)
  | subtype (a : ParamSays)

/-- The name that a declaration introduces and what the name stands for, as far as it is kept according to C60.
An instantiation is not the declaration of a type but the request to make one. -/
def declares : Directive → Option (String × Declared)
  | .struct d => some (d.name, .struct (structSays d).withoutExtend)
  | .choice d => some (d.name, .choice (choiceSays d).withoutDefault)
  | .union d => some (d.name, .union (unionSays d).withoutConstraints)
  | .enum d => some (d.name, .enum (enumSays d).withoutMarks)
  | .bitmask d => some (d.name, .bitmask (bitmaskSays d))
  | .const d => some (d.name, .const (constSays d))
  | .subtype d => some (d.name, .subtype (aliasSays d))
  | .instantiate _ | .other _ => none

/-- What a symbol of a package says. -/
def readSymbol : Ast.Symbol F → Option Declared
  | .struct d => (readStruct d).map .struct
  | .choice d => (readChoice d).map .choice
  | .union d => (readUnion d).map .union
  | .enum d => (readEnum d).map .enum
  | .bitmask d => (readBitmask d).map .bitmask
  | .const d => (readConst d).map .const
  | .subtype d => (readAlias d).map .subtype
  | .item .. | .field _ | .param _ | .func _ => none

/-- The members of a structure, of a union, of a choice and of an enumeration, under their names. -/
def structMembers (s : Ast.Struct F) : List (String × Ast.Symbol F) :=
  s.params.map (fun p => (p.name, .param p)) ++ s.fields.map (fun f => (f.name, .field f)) ++
    s.functions.map (fun f => (f.name, .func f))
@[inherit_doc structMembers]
def unionMembers (u : Ast.Union F) : List (String × Ast.Symbol F) :=
  u.params.map (fun p => (p.name, .param p)) ++ u.fields.map (fun f => (f.name, .field f)) ++
    u.functions.map (fun f => (f.name, .func f))
@[inherit_doc structMembers]
def choiceMembers (c : Ast.Choice F) : List (String × Ast.Symbol F) :=
  c.params.map (fun p => (p.name, .param p)) ++
    (c.cases.filterMap Ast.Case.field).map (fun f => (f.name, .field f)) ++
    c.functions.map (fun f => (f.name, .func f))
@[inherit_doc structMembers]
def enumMembers (e : Ast.Enum F) : List (String × Ast.Symbol F) :=
  e.items.zipIdx.map (fun i => (i.1.name, .item e i.2))

end Zs.Spec
