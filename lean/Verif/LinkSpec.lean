import Verif.SourceSpec

/-!
# Specification: whole schemas with the expressions of the schema text

`SourceSpec.lean` is about one structure, choice or union; the functions of the types of its fields are those
of the schema model.  Here the types of the fields are written in the schema as well, each with its own
expressions, and their functions are the emitted ones: `linked` are the functions that are executed when the
bodies emitted for a type are called, and the bodies emitted for the types that use it call these.
-/

namespace Zs

namespace Emit

/-- `Default` of the Rust type of a field (`generator/packed_contexts.rs` lines 59-70; `generator/zstruct.rs`,
`generator/zchoice.rs` and `generator/zunion.rs` derive or emit `Default`). -/
def Field.dflt (g : Field) : Val :=
  if g.optional then .none else if g.array.isSome then .list [] else g.ty.rust.default

end Emit

namespace Spec

open Emit

variable {fo : FloatOps} {O : Type}

/-! ## Calls of emitted functions -/

/-- What an emitted function sees when it is called with `self` and the other arguments it has. -/
def call (self : Val) (node : Node) (w : Writer) (r : Reader) (start : Nat) : Core :=
  match self with
  | .obj ps fs => ⟨ps, fs, 0, node, w, r, start, 0, 0⟩
  | .union ps k fs => ⟨ps, fs, k, node, w, r, start, 0, 0⟩
  | v => ⟨[], [v], 0, node, w, r, start, 0, 0⟩

open Classical in
/-- The outcome of executing lines; it is unique (`C55_unique`).  Lines that are no blocks have none. -/
noncomputable def outcome {α : Type} (cfg : Cfg) (ls : List Line) (k : Core) (view : Core → α) : Res α :=
  if h : ∃ out, Executes cfg ls k view out then Classical.choose h else .panic

/-- The functions of a type for which the bodies `b` are emitted: calling one executes its body. -/
noncomputable def linked (cfg : Cfg) (b : Bodies) (view : Core → Val) (dflt : Val) : Codec where
  dflt := dflt
  read v r := outcome cfg (b.read false) (call v Node.new ⟨[]⟩ r 0) fun k => (view k, k.r)
  write v w := outcome cfg (b.write false) (call v Node.new w ⟨0, []⟩ 0) Core.w
  bitsize v p := outcome cfg (b.bitsize false) (call v Node.new ⟨[]⟩ ⟨0, []⟩ p) Core.size
  createContext := match outcome cfg b.create (call dflt Node.new ⟨[]⟩ ⟨0, []⟩ 0) Core.node with
    | .ok n => n
    | _ => Node.new
  initContext v n := outcome cfg b.init (call v n ⟨[]⟩ ⟨0, []⟩ 0) Core.node
  readPacked v n r := outcome cfg (b.read true) (call v n ⟨[]⟩ r 0) fun k => ((view k, k.node), k.r)
  writePacked v n w := outcome cfg (b.write true) (call v n w ⟨0, []⟩ 0) fun k => (k.w, k.node)
  bitsizePacked v n p := outcome cfg (b.bitsize true) (call v n ⟨[]⟩ ⟨0, []⟩ p) fun k => (k.size, k.node)

/-! ## Schemas as they are written -/

mutual
/-- A type as it is written, with everything it uses.  A structure, choice or union has its own scope `sc`, and
`look` tells what its expressions see of an object.  Simplified: as `Schema.lean`, and the selector of a choice
is a function of the parameters. -/
inductive SourceTy (F O : Type) where
  | builtin (s : Scalar)
  | bit (e : Expr F)
  | int (e : Expr F)
  | enum (base : Scalar) (items : List (Option Int))
  | bitmask (base : Scalar) (first : Int)
  | struct (sc : TScope) (look : Env → World F O) (params : List Val) (fields : SourceFields F O)
  | choice (sc : TScope) (look : Env → World F O) (params : List Val) (selector : List Val → Val)
      (cases : SourceCases F O)
  | union (sc : TScope) (look : Env → World F O) (params : List Val) (members : SourceFields F O)
/-- The fields of a structure or union. -/
inductive SourceFields (F O : Type) where
  | nil
  | cons (mods : Modifiers F) (ty : SourceTy F O) (rest : SourceFields F O)
/-- The cases of a choice. -/
inductive SourceCases (F O : Type) where
  | nil
  | field (labels : List Val) (mods : Modifiers F) (ty : SourceTy F O) (rest : SourceCases F O)
  | empty (labels : List Val) (rest : SourceCases F O)
end

mutual
/-- What a type means; `look` is that of the type that uses it. -/
def SourceTy.meaning (look : Env → World fo.F O) : SourceTy fo.F O → Ty
  | .builtin s => .scalar s
  | .bit e => .scalar (.bitsDyn fun env => lengthValue (look env) e)
  | .int e => .scalar (.intsDyn fun env => lengthValue (look env) e)
  | .enum base items => .enum base items
  | .bitmask base first => .bitmask base first
  | .struct _ look params fields => .struct params (fields.meaning look)
  | .choice _ look params selector cases => .choice params selector (cases.meaning look)
  | .union _ look params members => .union params (members.meaning look)
def SourceFields.meaning (look : Env → World fo.F O) : SourceFields fo.F O → Fields
  | .nil => .nil
  | .cons mods ty rest => .cons (mods.info look) (ty.meaning look) (rest.meaning look)
def SourceCases.meaning (look : Env → World fo.F O) : SourceCases fo.F O → Cases
  | .nil => .nil
  | .field labels mods ty rest => .field labels (mods.info look) (ty.meaning look) (rest.meaning look)
  | .empty labels rest => .empty labels (rest.meaning look)
end

/-- The type of a field as in `SourceSpec.lean`. -/
def SourceTy.written (look : Env → World fo.F O) : SourceTy fo.F O → WrittenTy fo.F
  | .bit e => .bit e
  | .int e => .int e
  | t => .plain (t.meaning look)

/-- A field as in `SourceSpec.lean`. -/
def Modifiers.with (m : Modifiers fo.F) (ty : WrittenTy fo.F) : Written fo.F := { toModifiers := m, ty := ty }

/-! ## What is emitted -/

/-- The number of parameters of a type. -/
def SourceTy.numParams : SourceTy fo.F O → Nat
  | .struct _ _ params _ | .choice _ _ params _ _ | .union _ _ params _ => params.length
  | _ => 0

/-- A reference to a type: a compound type is one whose functions are in `Fns`. -/
def SourceTy.Refers (cfg : Cfg) (md : Mode) (build : Mode) (sc : TScope) (look : Env → World fo.F O)
    (Fns : Codec → Prop) : SourceTy fo.F O → RefTy → Prop
  | .builtin s, ref => RunsType cfg md sc build look (.plain (.scalar s)) ref
  | .bit e, ref => RunsType cfg md sc build look (.bit e) ref
  | .int e, ref => RunsType cfg md sc build look (.int e) ref
  | t, ref => ∃ c, Fns c ∧ ref = .compound c t.numParams

mutual
/-- `c` are the functions of the type when everything is emitted: its bodies are executed, and they call the
emitted functions of the types it uses. -/
def SourceTy.Linked (cfg : Cfg) (md : Mode) (build : Mode) : SourceTy fo.F O → Codec → Prop
  | .builtin _, _ | .bit _, _ | .int _, _ => False
  | .enum base items, c => ∃ name bits length, IsScalar NoObject name bits length base ∧
      c = linked cfg (enumBodies ((RefTy.builtin name bits length).inScope outside) (enumNumber base items)
        (enumItem items)) asNumber (.item 0)
  | .bitmask base first, c => ∃ name bits length, IsScalar NoObject name bits length base ∧
      c = linked cfg (bitmaskBodies ((RefTy.builtin name bits length).inScope outside)) asNumber
        (base.ofInt first)
  | .struct sc look params fields, c => ∃ gs, fields.Emitted cfg md build sc look gs ∧
      c = linked cfg (structBodies gs) asObj (.obj params (gs.map Field.dflt))
  | .choice sc look params selector cases, c => ∃ ds, cases.Emitted cfg md build sc look ds ∧
      c = linked cfg (choiceBodies selector ds) asObj (.obj params ((choiceFields ds).map Field.dflt))
  | .union sc look params members, c => ∃ gs, members.Emitted cfg md build sc look gs ∧
      c = linked cfg (unionBodies gs) asUnion (.union params 0 (gs.map Field.dflt))
/-- The generator looks at the fields `gs`. -/
def SourceFields.Emitted (cfg : Cfg) (md : Mode) (build : Mode) (sc : TScope) (look : Env → World fo.F O) :
    SourceFields fo.F O → List Field → Prop
  | .nil, gs => gs = []
  | .cons mods ty rest, gs => ∃ g gs', gs = g :: gs' ∧ EmittedMods md sc build look mods g ∧
      ty.Refers cfg md build sc look (ty.Linked cfg md build) g.ty ∧
      rest.Emitted cfg md build sc look gs'
/-- The generator looks at the cases `ds`. -/
def SourceCases.Emitted (cfg : Cfg) (md : Mode) (build : Mode) (sc : TScope) (look : Env → World fo.F O) :
    SourceCases fo.F O → List Case → Prop
  | .nil, ds => ds = []
  | .field labels mods ty rest, ds => ∃ g ds', ds = ⟨labels, some g⟩ :: ds' ∧
      EmittedMods md sc build look mods g ∧
      ty.Refers cfg md build sc look (ty.Linked cfg md build) g.ty ∧
      rest.Emitted cfg md build sc look ds'
  | .empty labels rest, ds => ∃ ds', ds = ⟨labels, none⟩ :: ds' ∧ rest.Emitted cfg md build sc look ds'
end

mutual
/-- Rust accepts all expressions where they are emitted, no function is named like a method that the generator
emits, and enums and bitmasks have integer types. -/
def SourceTy.Accepts (md : Mode) : SourceTy fo.F O → Prop
  | .builtin _ | .bit _ | .int _ => True
  | .enum base _ | .bitmask base _ => base.isPackable = true
  | .struct sc look _ fields => Ordinary sc ∧ fields.Accepts md sc look
  | .choice sc look _ _ cases => Ordinary sc ∧ cases.Accepts md sc look
  | .union sc look _ members => Ordinary sc ∧ members.Accepts md sc look
def SourceFields.Accepts (md : Mode) (sc : TScope) (look : Env → World fo.F O) : SourceFields fo.F O → Prop
  | .nil => True
  | .cons mods ty rest => (mods.with (ty.written look)).Accepts md sc ∧ ty.Accepts md ∧
      rest.Accepts md sc look
def SourceCases.Accepts (md : Mode) (sc : TScope) (look : Env → World fo.F O) : SourceCases fo.F O → Prop
  | .nil => True
  | .field _ mods ty rest => (mods.with (ty.written look)).Accepts md sc ∧ ty.Accepts md ∧
      rest.Accepts md sc look
  | .empty _ rest => rest.Accepts md sc look
end

/-! ## Values in range at all levels -/

/-- Values of the same Rust type; objects and items of enums have their own. -/
def SameType : Val → Val → Prop
  | .bool _, .bool _ | .str _, .str _ | .bytes _, .bytes _ | .extern _, .extern _ => True
  | .f32 _, .f32 _ | .f64 _, .f64 _ | .nat _, .nat _ | .int _, .int _ => True
  | _, _ => False

/-- A value of the Rust type of a builtin type; nothing is said about compound types. -/
def SourceTy.HasKind : SourceTy fo.F O → Val → Prop
  | .builtin s, v => SameType s.dflt v
  | .bit _, v => ∃ n, v = .nat n
  | .int _, v => ∃ n, v = .int n
  | _, _ => True

/-- A value of the Rust type of a field. -/
def Modifiers.HasType (m : Modifiers fo.F) (ty : SourceTy fo.F O) (v : Val) : Prop :=
  let content := fun x => if m.array.isSome then ∃ xs, x = .list xs else ty.HasKind x
  if m.optional then v = .none ∨ ∃ x, v = .some x ∧ content x else content v

/-- `x` is the value of the field or an element of its array. -/
def Modifiers.Contains (m : Modifiers fo.F) (v x : Val) : Prop :=
  ∃ y, (if m.optional then v = .some y else v = y) ∧
    (if m.array.isSome then ∃ xs, y = .list xs ∧ x ∈ xs else x = y)

/-- The expressions of the field are in range, and so is what is in it (`Q`), if the field is there. -/
def Modifiers.Meets (md : Mode) (sc : TScope) (look : Env → World fo.F O) (m : Modifiers fo.F)
    (ty : SourceTy fo.F O) (Q : Val → Prop) (env : Env) (v : Val) : Prop :=
  (m.with (ty.written look)).InRange md sc look env ∧ (m.Present look env → ∀ x, m.Contains v x → Q x)

/-- Elements of the field use packing contexts. -/
def Modifiers.isPacked (m : Modifiers fo.F) (packed : Bool) : Bool := packed || m.array.any Prod.fst

mutual
/-- The expressions of the type and of all types it uses are in range for the value, which has the Rust type of
the type.  `packed`: the value is an element of a packed array, or is in one; then also the fields of a choice
that are not selected are looked at (to initialise the contexts). -/
def SourceTy.InRange (md : Mode) (packed : Bool) : SourceTy fo.F O → Val → Prop
  | .builtin _, _ | .bit _, _ | .int _, _ => True
  | .enum _ items, v => ∃ i, v = .item i ∧ i < (enumValues items).length
  | .bitmask base _, v => SameType base.dflt v
  | .struct sc look _ fields, v => ∃ ps vs, v = .obj ps vs ∧ fields.InRange md packed sc look ps [] vs
  | .choice sc look _ selector cases, v => ∃ ps vs, v = .obj ps vs ∧
      cases.InRange md packed sc look ps (selector ps) false vs
  | .union sc look _ members, v => ∃ ps k vs, v = .union ps k vs ∧
      members.MemberInRange md packed sc look ps (some k) vs
/-- The fields of a structure; `done` are those in front. -/
def SourceFields.InRange (md : Mode) (packed : Bool) (sc : TScope) (look : Env → World fo.F O)
    (ps : List Val) : SourceFields fo.F O → List Val → List Val → Prop
  | .nil, _, vs => vs = []
  | .cons mods ty rest, done, vs => ∃ v vs', vs = v :: vs' ∧ mods.HasType ty v ∧
      mods.Meets md sc look ty (ty.InRange md (mods.isPacked packed)) ⟨ps, done⟩ v ∧
      rest.InRange md packed sc look ps (done ++ [v]) vs'
/-- The members of a union; the `k`-th is selected. -/
def SourceFields.MemberInRange (md : Mode) (packed : Bool) (sc : TScope) (look : Env → World fo.F O)
    (ps : List Val) : SourceFields fo.F O → Option Nat → List Val → Prop
  | .nil, _, vs => vs = []
  | .cons mods ty rest, k, vs => ∃ v vs', vs = v :: vs' ∧ mods.HasType ty v ∧
      (k = some 0 → mods.Meets md sc look ty (ty.InRange md (mods.isPacked packed)) ⟨ps, []⟩ v) ∧
      rest.MemberInRange md packed sc look ps (match k with
        | some (k + 1) => some k
        | _ => none) vs'
/-- The cases of a choice with the selector `sel`; `taken`: a case in front was selected. -/
def SourceCases.InRange (md : Mode) (packed : Bool) (sc : TScope) (look : Env → World fo.F O)
    (ps : List Val) (sel : Val) : SourceCases fo.F O → Bool → List Val → Prop
  | .nil, _, vs => vs = []
  | .field labels mods ty rest, taken, vs => ∃ v vs', vs = v :: vs' ∧ mods.HasType ty v ∧
      (packed = true ∨ (taken = false ∧ sel ∈ labels) →
        mods.Meets md sc look ty (ty.InRange md (mods.isPacked packed)) ⟨ps, []⟩ v) ∧
      rest.InRange md packed sc look ps sel (taken || decide (sel ∈ labels)) vs'
  | .empty labels rest, taken, vs =>
      rest.InRange md packed sc look ps sel (taken || decide (sel ∈ labels)) vs
end

/-! ## Schemas for which code can be emitted -/

/-- Arguments are passed to types with as many parameters. -/
def Modifiers.Emittable (m : Modifiers fo.F) (ty : SourceTy fo.F O) : Prop :=
  m.args ≠ [] → ty.numParams = m.args.length

mutual
/-- The builtin types exist, and arguments fit. -/
def SourceTy.Emittable : SourceTy fo.F O → Prop
  | .builtin s => s.WidthOk
  | .bit _ | .int _ => True
  | .enum base _ | .bitmask base _ => base.WidthOk
  | .struct _ _ _ fields => fields.Emittable
  | .choice _ _ _ _ cases => cases.Emittable
  | .union _ _ _ members => members.Emittable
def SourceFields.Emittable : SourceFields fo.F O → Prop
  | .nil => True
  | .cons mods ty rest => mods.Emittable ty ∧ ty.Emittable ∧ rest.Emittable
def SourceCases.Emittable : SourceCases fo.F O → Prop
  | .nil => True
  | .field _ mods ty rest => mods.Emittable ty ∧ ty.Emittable ∧ rest.Emittable
  | .empty _ rest => rest.Emittable
end

end Spec

end Zs
