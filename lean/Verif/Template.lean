import Verif.Base

/-!
# Model of `compiler/template_instantiation.rs`

File names are relative to `crates/zserio-rs-build/src/internal/`.

Simplifications, for the whole file: everything happens in one package, the lookup of a template by name
is a function of the state (`Scope.lean` models how names are resolved across packages); fields carry
only their name and type; expressions (type arguments) are opaque numbers.  `none` means that the
recursion has not ended within the fuel.
-/

namespace Zs

/-- `ast/type_reference.rs` lines 8-17: `TypeReference`, here with its template arguments. -/
inductive TRef where
  | mk (builtin : Bool) (package name : String) (bits : Nat) (targs : List TRef) (args : List Nat)
  deriving Inhabited

namespace TRef

def name : TRef → String
  | mk _ _ n _ _ _ => n

def targs : TRef → List TRef
  | mk _ _ _ _ ts _ => ts

def bits : TRef → Nat
  | mk _ _ _ b _ _ => b

def args : TRef → List Nat
  | mk _ _ _ _ _ as => as

def withTargs : TRef → List TRef → TRef
  | mk b p n k _ as, ts => mk b p n k ts as

def withArgs : TRef → List Nat → TRef
  | mk b p n k ts _, as => mk b p n k ts as

end TRef

/-- The three kinds of types that can be templates. -/
inductive TKind where
  | struct | choice | union
  deriving DecidableEq

/-- `ast/zstruct.rs`, `ast/zchoice.rs`, `ast/zunion.rs`: a structure, choice or union.  The fields of a
choice are those of its cases in order, followed by the field of the default case. -/
structure TDef where
  params : List String
  fields : List (String × TRef)
  typeParams : List (String × TRef) := []
  functions : List (String × TRef) := []
  deriving Inhabited

/-- The package (`structs`, `zchoices`, `zunions` of `ast/package.rs` lines 19-32) and the symbols a name
can refer to. -/
structure TState where
  package : String
  store : TKind → String → Option TDef
  lookup : String → Option (TKind × TDef)

/-- Lines 185-192, 319-327, 433-440: the new type is added to the package and to the scope. -/
def TState.insert (st : TState) (kind : TKind) (name : String) (d : TDef) : TState where
  package := st.package
  store := fun k n => if k = kind ∧ n = name then some d else st.store k n
  lookup := fun n => if n = name then some (kind, d) else st.lookup n

/-- A computation that may panic, or not have ended. -/
abbrev Run (α : Type) := Option (Res α)

def Run.bind {α β : Type} (x : Run α) (f : α → Run β) : Run β :=
  match x with
  | none => none
  | some .panic => some .panic
  | some (.err e) => some (.err e)
  | some (.ok a) => f a

/-- Lines 75-81: `generate_instantiated_name`. -/
def instantiatedName (t : TRef) : String :=
  t.targs.foldl (fun acc a => acc ++ a.name) t.name

/-- The mapping of template parameters to types, a `HashMap<String, TypeReference>`: of two entries with
the same name the later one counts. -/
def substLookup (subst : List (String × TRef)) (name : String) : Option TRef :=
  (subst.reverse.find? (fun p => p.1 == name)).map (·.2)

/-- Template arguments one after the other (lines 113-122). -/
def instArgs (inst : TState → TRef → Run (TState × TRef)) :
    TState → List TRef → Run (TState × List TRef)
  | st, [] => some (.ok (st, []))
  | st, t :: ts =>
    Run.bind (inst st t) fun r =>
    Run.bind (instArgs inst r.1 ts) fun rs =>
    some (.ok (rs.1, r.2 :: rs.2))

/-- Lines 443-483: `instantiate_field`; `inst` is `instantiate_type`. -/
def instField (inst : TState → TRef → Run (TState × TRef)) (st : TState)
    (subst : List (String × TRef)) (f : String × TRef) : Run (TState × (String × TRef)) :=
  if f.2.targs ≠ [] then
    let newArgs := f.2.targs.map fun a => (substLookup subst a.name).getD a
    Run.bind (inst st (f.2.withTargs newArgs)) fun r => some (.ok (r.1, (f.1, r.2)))
  else
    match substLookup subst f.2.name with
    | some t => some (.ok (st, (f.1, t.withArgs f.2.args)))
    | none => some (.ok (st, f))

/-- The fields one after the other (lines 134-144). -/
def instFields (inst : TState → TRef → Run (TState × TRef)) (subst : List (String × TRef)) :
    TState → List (String × TRef) → Run (TState × List (String × TRef))
  | st, [] => some (.ok (st, []))
  | st, f :: fs =>
    Run.bind (instField inst st subst f) fun r =>
    Run.bind (instFields inst subst r.1 fs) fun rs =>
    some (.ok (rs.1, r.2 :: rs.2))

/-- Lines 145-164 and 401-419 (structures and unions: by the name of the parameter's *type*) and lines
283-302 (choices: by the name of the *parameter*). -/
def instTypeParam (kind : TKind) (subst : List (String × TRef)) (p : String × TRef) : String × TRef :=
  let key := match kind with
    | .choice => p.1
    | _ => p.2.name
  match substLookup subst key with
  | some t => (p.1, t)
  | none => p

/-- Lines 166-183, 304-318, 421-435: functions. -/
def instFunction (subst : List (String × TRef)) (f : String × TRef) : String × TRef :=
  match substLookup subst f.2.name with
  | some t => (f.1, t)
  | none => f

/-- Lines 21-73 `instantiate_type` together with lines 83-193 `instantiate_struct`, 195-331
`instantiate_choice` and 333-441 `instantiate_union`. -/
def instantiateType : Nat → TState → TRef → String → Run (TState × TRef)
  | 0, _, _, _ => none
  | fuel + 1, st, t, given =>
    if t.targs = [] then some (.ok (st, t))
    else
      let name := if given = "" then instantiatedName t else given
      match st.lookup t.name with
      | none => some .panic
      | some (kind, d) =>
        if d.params = [] ∨ d.params.length ≠ t.targs.length then some .panic
        else
          let ref : TRef := .mk false st.package name 0 [] t.args
          match st.store kind name with
          | some _ => some (.ok (st, ref))
          | none =>
            let inst := fun s a => instantiateType fuel s a ""
            Run.bind (instArgs inst st t.targs) fun r =>
            let subst := d.params.zip r.2
            Run.bind (instFields inst subst r.1 d.fields) fun fs =>
            some (.ok (fs.1.insert kind name
              { params := [], fields := fs.2,
                typeParams := d.typeParams.map (instTypeParam kind subst),
                functions := d.functions.map (instFunction subst) }, ref))

end Zs
