import Verif.Exec
import Verif.SchemaSpec

/-!
# Which field of a schema a field of the generator stands for

`Denotes cfg E g f` relates what the generator looks at (`Emit.Field`) to a field of the schema model
(`FieldOps`), whose meaning the other properties are about.  Expressions are related by their values
for the objects in `E`: only there they must not panic.
-/

namespace Zs

namespace Spec

open Emit

/-- The builtin types: name, `bits` and length expression as the parser gives them, and the type they
stand for.  A length below 256 needs no cast. -/
inductive IsScalar (E : Env → Prop) : BName → Nat → Option LenExpr → Scalar → Prop
  | bool : IsScalar E .bool 0 none .bool
  | string : IsScalar E .string 0 none .string
  | bytes : IsScalar E .bytes 0 none .bytes
  | extern : IsScalar E .extern 0 none .extern
  | float16 : IsScalar E .float16 0 none .float16
  | float32 : IsScalar E .float32 0 none .float32
  | float64 : IsScalar E .float64 0 none .float64
  | uint8 : IsScalar E .uint8 0 none (.uint 8)
  | uint16 : IsScalar E .uint16 0 none (.uint 16)
  | uint32 : IsScalar E .uint32 0 none (.uint 32)
  | uint64 : IsScalar E .uint64 0 none (.uint 64)
  | int8 : IsScalar E .int8 0 none (.int 8)
  | int16 : IsScalar E .int16 0 none (.int 16)
  | int32 : IsScalar E .int32 0 none (.int 32)
  | int64 : IsScalar E .int64 0 none (.int 64)
  | bits (n : Nat) (h : 0 < n) : IsScalar E .bit n none (.bits n)
  | ints (n : Nat) (h : 0 < n) : IsScalar E .int n none (.ints n)
  | bitsDyn (l : LenExpr) (len : Env → Nat) (h : ∀ env, E env → l.eval env = .ok (len env))
      (hc : l.cast = false → ∀ env, E env → len env < 256) : IsScalar E .bit 0 (some l) (.bitsDyn len)
  | intsDyn (l : LenExpr) (len : Env → Nat) (h : ∀ env, E env → l.eval env = .ok (len env))
      (hc : l.cast = false → ∀ env, E env → len env < 256) : IsScalar E .int 0 (some l) (.intsDyn len)
  | varuint16 : IsScalar E .varuint16 0 none .varuint16
  | varuint32 : IsScalar E .varuint32 0 none .varuint32
  | varuint64 : IsScalar E .varuint64 0 none .varuint64
  | varuint : IsScalar E .varuint 0 none .varuint
  | varsize : IsScalar E .varsize 0 none .varsize
  | varint16 : IsScalar E .varint16 0 none .varint16
  | varint32 : IsScalar E .varint32 0 none .varint32
  | varint64 : IsScalar E .varint64 0 none .varint64
  | varint : IsScalar E .varint 0 none .varint

/-- A reference to a builtin type or to a generated type. -/
inductive IsType (cfg : Cfg) (E : Env → Prop) : RefTy → TypeOps → Prop
  | scalar {name : BName} {bits : Nat} {length : Option LenExpr} {s : Scalar}
      (h : IsScalar E name bits length s) : IsType cfg E (.builtin name bits length) (s.ops cfg)
  | compound (c : Codec) (n : Nat) : IsType cfg E (.compound c n) c.ops

/-- An expression that may be missing, with the values of `b` on `E`. -/
def IsExpr {α : Type} (E : Env → Prop) : Option (Env → Res α) → Option (Env → α) → Prop
  | none, none => True
  | some a, some b => ∀ env, E env → a env = .ok (b env)
  | _, _ => False

/-- The array part of a field. -/
def IsArray (E : Env → Prop) : Option ArrayField → Option ArrayInfo → Prop
  | none, none => True
  | some a, some b => a.isPacked = b.isPacked ∧ IsExpr E a.length b.length
  | _, _ => False

/-- Type arguments; those that do not use `@index` have the same value for all elements. -/
def AreArgs (E : Env → Prop) : List Arg → List (Env → Nat → Val) → Prop
  | [], [] => True
  | a :: as, b :: bs => (∀ env i, E env → a.eval env i = .ok (b env i)) ∧
      (a.usesIndex = false → ∀ env i j, E env → b env i = b env j) ∧ AreArgs E as bs
  | _, _ => False

/-- The objects in `E` that have the field `f`: what is inside of its `if` is executed for these
only. -/
def Inside (E : Env → Prop) (f : FieldOps) (env : Env) : Prop :=
  E env ∧ ∀ c, f.info.clause = some c → c env = true

/-- The objects for which the length of the type of `f` is computed: the array is declared in front
of the `if`. -/
def InFront (E : Env → Prop) (f : FieldOps) (env : Env) : Prop :=
  E env ∧ (f.info.array = none → ∀ c, f.info.clause = some c → c env = true)

/-- The field `g` the generator looks at is the field `f` of a schema, for the objects in `E`.
Arguments are passed to compound types only, one for every parameter, and `@index` occurs in arrays
only. -/
structure Denotes (cfg : Cfg) (E : Env → Prop) (g : Field) (f : FieldOps) : Prop where
  ty : IsType cfg (InFront E f) g.ty f.ty
  optional : g.optional = f.info.optional
  clause : IsExpr E g.clause f.info.clause
  alignment : g.alignment = f.info.alignment
  offset : g.offset = f.info.offset
  array : IsArray E g.array f.info.array
  args : AreArgs (Inside E f) g.args f.info.args
  isOffsetField : g.isOffsetField = f.info.isOffsetField
  arity : g.args ≠ [] → ∃ c, g.ty = .compound c g.args.length ∧
    c.dflt.params.length = g.args.length
  index : g.array = none → ∀ a ∈ g.args, a.usesIndex = false

/-- The fields of a compound type from the `i`-th on; `E i` are the objects the expressions of the
`i`-th field are for. -/
def DenoteAll (cfg : Cfg) (E : Nat → Env → Prop) : Nat → List Field → List FieldOps → Prop
  | _, [], [] => True
  | i, g :: gs, f :: fs => Denotes cfg (E i) g f ∧ DenoteAll cfg E (i + 1) gs fs
  | _, _, _ => False

/-- A value of a Rust type; nothing is said about objects. -/
def HasRust : RustTy → Val → Prop
  | .u8, .nat _ | .u16, .nat _ | .u32, .nat _ | .u64, .nat _ => True
  | .i8, .int _ | .i16, .int _ | .i32, .int _ | .i64, .int _ => True
  | .f32, .f32 _ => True
  | .f64, .f64 _ => True
  | .bool, .bool _ => True
  | .string, .str _ => True
  | .extern, .extern _ => True
  | .bytes, .bytes _ => True
  | .compound _, _ => True
  | _, _ => False

/-- A value of the Rust type of a field without `Option`. -/
def HasContent (g : Field) (x : Val) : Prop :=
  if g.array.isSome then ∃ xs, x = .list xs else HasRust g.ty.rust x

/-- A value of the Rust type of a field. -/
def HasType (g : Field) (v : Val) : Prop :=
  if g.optional then v = .none ∨ ∃ x, v = .some x ∧ HasContent g x else HasContent g v

/-- The fields of an object have the Rust types of the fields. -/
def HaveTypes : List Field → List Val → Prop
  | [], [] => True
  | g :: gs, v :: vs => HasType g v ∧ HaveTypes gs vs
  | _, _ => False

/-- The cases of a choice; the fields are counted from `i`. -/
def DenoteCases (cfg : Cfg) (E : Nat → Env → Prop) : Nat → List Case → List CaseOps → Prop
  | _, [], [] => True
  | i, c :: cs, d :: ds => c.labels = d.labels ∧
      (match c.field, d.field with
        | none, none => DenoteCases cfg E i cs ds
        | some g, some f => Denotes cfg (E i) g f ∧ DenoteCases cfg E (i + 1) cs ds
        | _, _ => False)
  | _, _, _ => False

/-- What is called. -/
inductive Act where
  | write
  | read (packed : Bool)
  | bitsize
  | init

/-- The bodies `b` do what the functions of `c` do: executed on an object for which `ok` holds, they
have the same result.  `obj` is the object behind `self`.  The functions that are not packed have no
`context_node`, and `zserio_create_packing_context` is called with a new node. -/
structure Implements (cfg : Cfg) (b : Bodies) (c : Codec) (obj : Core → Val) (ok : Act → Core → Prop) :
    Prop where
  write : ∀ k, ok .write k → k.node = Node.new →
    Executes cfg (b.write false) k Core.w (c.write (obj k) k.w)
  writePacked : ∀ k, ok .write k →
    Executes cfg (b.write true) k (fun k => (k.w, k.node)) (c.writePacked (obj k) k.node k.w)
  read : ∀ k, ok (.read false) k → k.node = Node.new →
    Executes cfg (b.read false) k (fun k => (obj k, k.r)) (c.read (obj k) k.r)
  readPacked : ∀ k, ok (.read true) k →
    Executes cfg (b.read true) k (fun k => ((obj k, k.node), k.r)) (c.readPacked (obj k) k.node k.r)
  bitsize : ∀ k, ok .bitsize k → k.node = Node.new →
    Executes cfg (b.bitsize false) k Core.size (c.bitsize (obj k) k.start)
  bitsizePacked : ∀ k, ok .bitsize k →
    Executes cfg (b.bitsize true) k (fun k => (k.size, k.node)) (c.bitsizePacked (obj k) k.node k.start)
  create : ∀ k, k.node = Node.new → Executes cfg b.create k Core.node (.ok c.createContext)
  init : ∀ k, ok .init k → Executes cfg b.init k Core.node (c.initContext (obj k) k.node)

/-- The object behind `self` in the functions of structures and choices. -/
def asObj (k : Core) : Val := .obj k.params k.fields

/-- The object behind `self` in the functions of unions. -/
def asUnion (k : Core) : Val := .union k.params k.selector k.fields

/-- The object behind `self` in the functions of enums and bitmasks. -/
def asNumber (k : Core) : Val := match k.fields with
  | [v] => v
  | _ => .none

/-- The base type of an enum or bitmask: its length expression sees no object. -/
def outside (_ : Env) : Env := ⟨[], []⟩

/-- The object of an enum or bitmask is stored as a number of the Rust type `rust`. -/
def IsNumber (rust : RustTy) (number : Val → Res Val) (k : Core) : Prop :=
  ∃ x v, k.fields = [x] ∧ number x = .ok v ∧ HasRust rust v

/-- The object behind `self` in the functions of a type. -/
def viewOf : Ty → Core → Val
  | .union _ _ => asUnion
  | .enum _ _ | .bitmask _ _ => asNumber
  | _ => asObj

/-- The fields read so far are in `E`, whenever a field of a structure is read. -/
def ReadsIn (cfg : Cfg) (E : Nat → Env → Prop) (packed : Bool) (params : List Val) :
    List FieldOps → Nat → List Val → List Val → Node → Reader → Prop
  | f :: fs, i, done, v :: vs, n, r => E i ⟨params, done⟩ ∧
      ∀ x, f.decode cfg packed i ⟨params, done⟩ v n r = .ok x →
        ReadsIn cfg E packed params fs (i + 1) (done ++ [x.1.1]) vs x.1.2 x.2
  | _, _, _, _, _, _ => True

/-- The objects the functions of a structure are for: the fields have the Rust types of the fields,
and the fields before the `i`-th are in `E i`. -/
def StructOk (cfg : Cfg) (E : Nat → Env → Prop) (gs : List Field) (fs : List FieldOps) :
    Act → Core → Prop
  | .read packed, k => HaveTypes gs k.fields ∧
      ReadsIn cfg E packed k.params fs 0 [] k.fields k.node k.r
  | _, k => HaveTypes gs k.fields ∧ ∀ i < gs.length, E i ⟨k.params, k.fields.take i⟩

/-- The objects the functions of a choice are for: the parameters are in `E i` if the `i`-th field is
selected. -/
def ChoiceOk (E : Nat → Env → Prop) (selector : List Val → Val) (cs : List Case) (ds : List CaseOps) :
    Act → Core → Prop
  | .init, k => HaveTypes (choiceFields cs) k.fields ∧
      ∀ i < (choiceFields cs).length, E i ⟨k.params, []⟩
  | _, k => HaveTypes (choiceFields cs) k.fields ∧
      ∀ i f, selectCase (selector k.params) 0 ds = some (i, f) → E i ⟨k.params, []⟩

/-- The objects the functions of a union are for: the parameters are in `E i` if the `i`-th member is
selected.  Only `zserio_read` reads the selector. -/
def UnionOk (E : Nat → Env → Prop) (gs : List Field) : Act → Core → Prop
  | .read false, k => HaveTypes gs k.fields ∧
      ∀ i r, readVarsize k.r = .ok (i, r) → i < gs.length → E i ⟨k.params, []⟩
  | .init, k => HaveTypes gs k.fields
  | _, k => HaveTypes gs k.fields ∧ (k.selector < gs.length → E k.selector ⟨k.params, []⟩)

/-- The base type of an enum or bitmask is used without an object. -/
def NoObject (env : Env) : Prop := env = ⟨[], []⟩

/-- `b` are bodies emitted for the type `t`, whose functions are `c` in the model of schemas, and `ok`
tells which objects have the Rust type declared for `t` and are in `E`: the expressions of the `i`-th
field are the ones of the schema for the objects in `E i`. -/
inductive Generated (cfg : Cfg) (E : Nat → Env → Prop) : Ty → Bodies → Codec → (Act → Core → Prop) → Prop
  | struct {params : List Val} {fields : Fields} {gs : List Field}
      (h : DenoteAll cfg E 0 gs (fields.ops cfg)) :
      Generated cfg E (.struct params fields) (structBodies gs)
        (structCodec cfg params (fields.ops cfg)) (StructOk cfg E gs (fields.ops cfg))
  | choice {params : List Val} {selector : List Val → Val} {cases : Cases} {cs : List Case}
      (h : DenoteCases cfg E 0 cs (cases.ops cfg)) :
      Generated cfg E (.choice params selector cases) (choiceBodies selector cs)
        (choiceCodec cfg params selector (cases.ops cfg)) (ChoiceOk E selector cs (cases.ops cfg))
  | union {params : List Val} {members : Fields} {gs : List Field}
      (h : DenoteAll cfg E 0 gs (members.ops cfg)) :
      Generated cfg E (.union params members) (unionBodies gs)
        (unionCodec cfg params (members.ops cfg)) (UnionOk E gs)
  | enum {name : BName} {bits : Nat} {length : Option LenExpr} {base : Scalar}
      (h : IsScalar NoObject name bits length base) (hp : base.isPackable = true)
      (items : List (Option Int)) :
      Generated cfg E (.enum base items)
        (enumBodies ((RefTy.builtin name bits length).inScope outside) (enumNumber base items)
          (enumItem items))
        (enumCodec cfg base items) (fun _ => IsNumber (rustName name) (enumNumber base items))
  | bitmask {name : BName} {bits : Nat} {length : Option LenExpr} {base : Scalar}
      (h : IsScalar NoObject name bits length base) (hp : base.isPackable = true) (first : Int) :
      Generated cfg E (.bitmask base first)
        (bitmaskBodies ((RefTy.builtin name bits length).inScope outside))
        (bitmaskCodec cfg base first) (fun _ => IsNumber (rustName name) .ok)

/-- The object behind `self` is one the expressions of the fields are for: those of the `i`-th field of
a structure see the fields in front of it, those of a choice or union are for the selected field, and
they see the parameters. -/
def Met (cfg : Cfg) (E : Nat → Env → Prop) : Ty → Core → Prop
  | .struct _ _, k => ∀ i < k.fields.length, E i ⟨k.params, k.fields.take i⟩
  | .choice _ selector cases, k =>
    ∀ i f, selectCase (selector k.params) 0 (cases.ops cfg) = some (i, f) → E i ⟨k.params, []⟩
  | .union _ _, k => E k.selector ⟨k.params, []⟩
  | _, _ => True

/-! ## Schemas for which code can be emitted -/

/-- The number of parameters of a generated type. -/
def paramCount : Ty → Option Nat
  | .struct params _ | .choice params _ _ | .union params _ => some params.length
  | _ => none

/-- Arguments are passed to types with as many parameters, and `@index` is used in arrays only. -/
def FieldInfo.Emittable (info : FieldInfo) (t : Ty) : Prop :=
  (info.args ≠ [] → paramCount t = some info.args.length) ∧
  (info.array = none → ∀ b ∈ info.args, ∀ env i j, b env i = b env j)

mutual
/-- The builtin types of a schema exist, enums and bitmasks have integer types, and arguments fit. -/
def _root_.Zs.Ty.Emittable : Ty → Prop
  | .scalar s => s.WidthOk
  | .enum base _ => base.WidthOk ∧ base.isPackable = true
  | .bitmask base _ => base.WidthOk ∧ base.isPackable = true
  | .struct _ fields => fields.Emittable
  | .choice _ _ cases => cases.Emittable
  | .union _ members => members.Emittable
def _root_.Zs.Fields.Emittable : Fields → Prop
  | .nil => True
  | .cons info ty rest => FieldInfo.Emittable info ty ∧ ty.Emittable ∧ rest.Emittable
def _root_.Zs.Cases.Emittable : Cases → Prop
  | .nil => True
  | .field _ info ty rest => FieldInfo.Emittable info ty ∧ ty.Emittable ∧ rest.Emittable
  | .empty _ rest => rest.Emittable
end

end Spec

end Zs
