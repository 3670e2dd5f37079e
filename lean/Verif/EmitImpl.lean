import Verif.EmitBody

/-!
# The emitted bodies do what the schema model says
-/

namespace Zs

namespace Emit

open Spec

theorem executes_of {α β : Type} {cfg : Cfg} {ls : List Line} {k : Core} {view : Core → α}
    {out : Res α} (c : Code) (hl : c.lines = ls) {R : Res β} {upd : β → Core}
    (h : (c.run cfg (St.start k) >>= fun st => .ok st.core) = (R >>= fun y => .ok (upd y)))
    (ho : (R >>= fun y => .ok (view (upd y))) = out) : Executes cfg ls k view out := by
  refine ⟨c, hl, ?_⟩
  have := congrArg (fun x => x >>= fun k => Res.ok (view k)) h
  rw [← ho]
  simpa using this

theorem bind_eta {α : Type} (R : Res α) : (R >>= fun y => .ok y) = R := by cases R <;> rfl

theorem bind_assoc' {α β γ : Type} (R : Res α) (f : α → Res β) (g : β → Res γ) :
    (R >>= f) >>= g = R >>= fun x => f x >>= g := by cases R <;> rfl

theorem run_okUnit (cfg : Cfg) (a : Code) (st : St) :
    ((a ++ Code.one .okUnit).run cfg st >>= fun st => .ok st.core)
      = (a.run cfg st >>= fun st => .ok st.core) := by
  rw [Code.run_append]
  cases a.run cfg st <;> rfl

/-- The state after `let mut end_position = bit_position;`. -/
def St.ended (st : St) : St := { st with core := { st.core with pos := st.core.start } }

/-- What outlives a size function. -/
def Core.sized (k : Core) : Core := { k with size := k.pos - k.start }

theorem run_size {β : Type} {cfg : Cfg} {a : Code} {st : St} {R : Res β} {upd : β → Core}
    (h : (a.run cfg st.ended >>= fun st => .ok st.core) = (R >>= fun y => .ok (upd y))) :
    ((Code.one .letEnd ++ a ++ Code.one .okSize).run cfg st >>= fun st => .ok st.core)
      = (R >>= fun y => .ok (upd y).sized) := by
  have h1 : ((Code.one .letEnd ++ a ++ Code.one .okSize).run cfg st >>= fun st => .ok st.core)
      = (a.run cfg st.ended >>= fun st => .ok st.core) >>= fun k => .ok k.sized := by
    rw [Code.run_append, Code.run_append, Code.run_one]
    show (a.run cfg st.ended >>= _) >>= _ = _
    cases a.run cfg st.ended <;> rfl
  rw [h1, h, bind_assoc']
  rfl

/-! ## Structures -/

theorem struct_implements {cfg : Cfg} {E : Nat → Env → Prop} (params : List Val) {gs : List Field} {fs : List FieldOps}
    (h : DenoteAll cfg E 0 gs fs) :
    Implements cfg (structBodies gs) (structCodec cfg params fs) asObj
      (StructOk cfg E gs fs) where
  write k ht hn := executes_of (structCode encodeCode false 0 gs ++ Code.one .okUnit)
    (by rw [Code.lines_append, lines_structCode lines_encodeCode]; rfl)
    ((run_okUnit _ _ _).trans (run_structWrite false [] k.fields (St.start k) h rfl ht.1
      (fun j hj => ht.2 j (by simpa using hj))))
    (by simp only [structCodec, asObj, St.start, hn]; rfl)
  writePacked k ht := executes_of (structCode encodeCode true 0 gs ++ Code.one .okUnit)
    (by rw [Code.lines_append, lines_structCode lines_encodeCode]; rfl)
    ((run_okUnit _ _ _).trans (run_structWrite true [] k.fields (St.start k) h rfl ht.1
      (fun j hj => ht.2 j (by simpa using hj))))
    (bind_eta _)
  read k ht hn := executes_of (structCode decodeCode false 0 gs ++ Code.one .okUnit)
    (by rw [Code.lines_append, lines_structCode lines_decodeCode]; rfl)
    ((run_okUnit _ _ _).trans (run_structRead false [] k.fields (St.start k) h rfl ht.1 ht.2))
    (by simp only [structCodec, asObj, St.start, hn]; rfl)
  readPacked k ht := executes_of (structCode decodeCode true 0 gs ++ Code.one .okUnit)
    (by rw [Code.lines_append, lines_structCode lines_decodeCode]; rfl)
    ((run_okUnit _ _ _).trans (run_structRead true [] k.fields (St.start k) h rfl ht.1 ht.2))
    (by simp only [structCodec, asObj, St.start]; rfl)
  bitsize k ht hn := executes_of
    (Code.one .letEnd ++ structCode bitsizeCode false 0 gs ++ Code.one .okSize)
    (by rw [Code.lines_append, Code.lines_append, lines_structCode lines_bitsizeCode]; rfl)
    (run_size (run_structSize false [] k.fields (St.start k).ended h rfl ht.1
      (fun j hj => ht.2 j (by simpa using hj))))
    (by simp only [structCodec, asObj, St.start, St.ended, Core.sized, hn]; rfl)
  bitsizePacked k ht := executes_of
    (Code.one .letEnd ++ structCode bitsizeCode true 0 gs ++ Code.one .okSize)
    (by rw [Code.lines_append, Code.lines_append, lines_structCode lines_bitsizeCode]; rfl)
    (run_size (run_structSize true [] k.fields (St.start k).ended h rfl ht.1
      (fun j hj => ht.2 j (by simpa using hj))))
    (by simp only [structCodec, asObj, St.start, St.ended, Core.sized]; rfl)
  create k hn := executes_of (β := Unit) (R := .ok ()) (upd := fun _ => _) (createCode gs)
    (lines_createCode gs) (run_createCode h (St.start k))
    (by simp [structCodec, St.start, hn, Node.new, Node.children, Node.context])
  init k ht := executes_of (initsCode before 0 gs ++ Code.one .okUnit)
    (by rw [Code.lines_append, lines_initsCode]; rfl)
    ((run_okUnit _ _ _).trans (run_structInit [] k.fields (St.start k) h rfl ht.1
      (fun j hj => ht.2 j (by simpa using hj)))) (bind_eta _)

/-! ## Choices -/

theorem denoteAll_choiceFields {cfg : Cfg} {E : Nat → Env → Prop} : ∀ {i : Nat} {cs : List Case}
    {ds : List CaseOps}, DenoteCases cfg E i cs ds → DenoteAll cfg E i (choiceFields cs) (caseFields ds)
  | _, [], [], _ => trivial
  | _, [], _ :: _, h => h.elim
  | _, _ :: _, [], h => h.elim
  | i, c :: cs, d :: ds, h => by
    obtain ⟨_, hf⟩ := h
    unfold choiceFields caseFields
    cases hc : c.field <;> cases hd : d.field <;> rw [hc, hd] at hf
    · rw [List.filterMap_cons_none hc, List.filterMap_cons_none hd]
      exact denoteAll_choiceFields hf
    · exact hf.elim
    · exact hf.elim
    · rw [List.filterMap_cons_some hc, List.filterMap_cons_some hd]
      exact ⟨hf.1, denoteAll_choiceFields hf.2⟩

/-- The tree of a `match` on the selector of a choice. -/
def choiceCode (gc : Field → Nat → Bool → Code) (selector : List Val → Val) (cs : List Case)
    (packed : Bool) : Code :=
  Code.sel (.param selector) (choiceArmsCode gc packed 0 cs)

theorem lines_choiceCode {gc : Field → Nat → Bool → Code} {gl : Field → Nat → Bool → List Line}
    (hl : ∀ f i packed, (gc f i packed).lines = gl f i packed) (selector : List Val → Val)
    (cs : List Case) (packed : Bool) :
    (choiceCode gc selector cs packed).lines = choiceMatch gl selector cs packed := by
  unfold choiceCode choiceMatch
  rw [Code.lines_sel, lines_choiceArmsCode hl]
  simp

theorem run_choiceCode {cfg : Cfg} {gc : Field → Nat → Bool → Code} {packed : Bool} {R : FieldDoes}
    (hR : Does cfg gc packed R) (selector : List Val → Val) {E : Nat → Env → Prop}
    {cs : List Case} {ds : List CaseOps} (h : DenoteCases cfg E 0 cs ds) (st : St)
    (ht : HaveTypes (choiceFields cs) st.core.fields)
    (hE : ∀ i f, selectCase (selector st.core.params) 0 ds = some (i, f) → E i ⟨st.core.params, []⟩) :
    ((choiceCode gc selector cs packed).run cfg st >>= fun st => .ok st.core)
      = match selectCase (selector st.core.params) 0 ds with
        | none => .ok st.core
        | some (i, f) => match st.core.fields[i]? with
          | none => .panic
          | some v => R f i ⟨st.core.params, []⟩ v st.core := by
  unfold choiceCode
  rw [Code.run_sel]
  exact run_choiceArms hR _ [] st.core.fields st h rfl ht hE

theorem run_choiceWrite {cfg : Cfg} (packed : Bool) (selector : List Val → Val) {E : Nat → Env → Prop}
    {cs : List Case} {ds : List CaseOps} (h : DenoteCases cfg E 0 cs ds) (st : St)
    (ht : HaveTypes (choiceFields cs) st.core.fields)
    (hE : ∀ i f, selectCase (selector st.core.params) 0 ds = some (i, f) → E i ⟨st.core.params, []⟩) :
    ((choiceCode encodeCode selector cs packed).run cfg st >>= fun st => .ok st.core)
      = (encodeChoice packed selector ds st.core.params st.core.fields st.core.node st.core.w >>=
          fun y => .ok { st.core with w := y.1, node := y.2 }) := by
  rw [run_choiceCode (does_write cfg packed) selector h st ht hE]
  unfold encodeChoice
  cases selectCase (selector st.core.params) 0 ds with
  | none => rfl
  | some p => cases hp : st.core.fields[p.1]? <;> simp only [hp] <;> rfl

theorem run_choiceRead {cfg : Cfg} (packed : Bool) (selector : List Val → Val) {E : Nat → Env → Prop}
    {cs : List Case} {ds : List CaseOps} (h : DenoteCases cfg E 0 cs ds) (st : St)
    (ht : HaveTypes (choiceFields cs) st.core.fields)
    (hE : ∀ i f, selectCase (selector st.core.params) 0 ds = some (i, f) → E i ⟨st.core.params, []⟩) :
    ((choiceCode decodeCode selector cs packed).run cfg st >>= fun st => .ok st.core)
      = (decodeChoice cfg packed selector ds st.core.params st.core.fields st.core.node st.core.r >>=
          fun x => .ok { st.core with r := x.2, node := x.1.2, fields := x.1.1 }) := by
  rw [run_choiceCode (does_read cfg packed) selector h st ht hE]
  unfold decodeChoice
  cases selectCase (selector st.core.params) 0 ds with
  | none => rfl
  | some p =>
    cases hp : st.core.fields[p.1]? with
    | none => simp only [hp]; rfl
    | some v =>
      simp only [hp, readDoes]
      cases p.2.decode cfg packed p.1 ⟨st.core.params, []⟩ v st.core.node st.core.r <;> rfl

theorem run_choiceSize {cfg : Cfg} (packed : Bool) (selector : List Val → Val) {E : Nat → Env → Prop}
    {cs : List Case} {ds : List CaseOps} (h : DenoteCases cfg E 0 cs ds) (st : St)
    (ht : HaveTypes (choiceFields cs) st.core.fields)
    (hE : ∀ i f, selectCase (selector st.core.params) 0 ds = some (i, f) → E i ⟨st.core.params, []⟩) :
    ((choiceCode bitsizeCode selector cs packed).run cfg st >>= fun st => .ok st.core)
      = (bitsizeChoice packed selector ds st.core.params st.core.fields st.core.node st.core.pos >>=
          fun y => .ok { st.core with pos := y.1, node := y.2 }) := by
  rw [run_choiceCode (does_size cfg packed) selector h st ht hE]
  unfold bitsizeChoice
  cases selectCase (selector st.core.params) 0 ds with
  | none => rfl
  | some p => cases hp : st.core.fields[p.1]? <;> simp only [hp] <;> rfl

theorem choice_implements {cfg : Cfg} {E : Nat → Env → Prop} (params : List Val) (selector : List Val → Val)
    {cs : List Case} {ds : List CaseOps} (h : DenoteCases cfg E 0 cs ds) :
    Implements cfg (choiceBodies selector cs) (choiceCodec cfg params selector ds) asObj
      (ChoiceOk E selector cs ds) where
  write k ht hn := executes_of (choiceCode encodeCode selector cs false ++ Code.one .okUnit)
    (by rw [Code.lines_append, lines_choiceCode lines_encodeCode]; rfl)
    ((run_okUnit _ _ _).trans (run_choiceWrite false selector h (St.start k) ht.1 ht.2))
    (by simp only [choiceCodec, asObj, St.start, hn]; rfl)
  writePacked k ht := executes_of (choiceCode encodeCode selector cs true ++ Code.one .okUnit)
    (by rw [Code.lines_append, lines_choiceCode lines_encodeCode]; rfl)
    ((run_okUnit _ _ _).trans (run_choiceWrite true selector h (St.start k) ht.1 ht.2))
    (bind_eta _)
  read k ht hn := executes_of (choiceCode decodeCode selector cs false ++ Code.one .okUnit)
    (by rw [Code.lines_append, lines_choiceCode lines_decodeCode]; rfl)
    ((run_okUnit _ _ _).trans (run_choiceRead false selector h (St.start k) ht.1 ht.2))
    (by simp only [choiceCodec, asObj, St.start, hn]; rfl)
  readPacked k ht := executes_of (choiceCode decodeCode selector cs true ++ Code.one .okUnit)
    (by rw [Code.lines_append, lines_choiceCode lines_decodeCode]; rfl)
    ((run_okUnit _ _ _).trans (run_choiceRead true selector h (St.start k) ht.1 ht.2))
    (by simp only [choiceCodec, asObj, St.start]; rfl)
  bitsize k ht hn := executes_of
    (Code.one .letEnd ++ choiceCode bitsizeCode selector cs false ++ Code.one .okSize)
    (by rw [Code.lines_append, Code.lines_append, lines_choiceCode lines_bitsizeCode]; rfl)
    (run_size (run_choiceSize false selector h (St.start k).ended ht.1 ht.2))
    (by simp only [choiceCodec, asObj, St.start, St.ended, Core.sized, hn]; rfl)
  bitsizePacked k ht := executes_of
    (Code.one .letEnd ++ choiceCode bitsizeCode selector cs true ++ Code.one .okSize)
    (by rw [Code.lines_append, Code.lines_append, lines_choiceCode lines_bitsizeCode]; rfl)
    (run_size (run_choiceSize true selector h (St.start k).ended ht.1 ht.2))
    (by simp only [choiceCodec, asObj, St.start, St.ended, Core.sized]; rfl)
  create k hn := executes_of (β := Unit) (R := .ok ()) (upd := fun _ => _)
    (createCode (choiceFields cs)) (lines_createCode (choiceFields cs))
    (run_createCode (denoteAll_choiceFields h) (St.start k))
    (by simp [choiceCodec, St.start, hn, Node.new, Node.children, Node.context])
  init k ht := executes_of (initsCode (fun _ => paramsOnly) 0 (choiceFields cs) ++ Code.one .okUnit)
    (by rw [Code.lines_append, lines_initsCode]; rfl)
    ((run_okUnit _ _ _).trans
      (run_choiceInit [] k.fields (St.start k) (denoteAll_choiceFields h) rfl ht.1
        (fun j hj => ht.2 j (by simpa using hj)))) (bind_eta _)

/-! ## Unions -/

/-- The tree of a `match` on the selector of a union. -/
def unionCode (gc : Field → Nat → Bool → Code) (gs : List Field) (packed : Bool) : Code :=
  Code.sel .unionSelector (unionArmsCode gc packed 0 gs)

theorem lines_unionCode {gc : Field → Nat → Bool → Code} {gl : Field → Nat → Bool → List Line}
    (hl : ∀ f i packed, (gc f i packed).lines = gl f i packed) (gs : List Field) (packed : Bool) :
    (unionCode gc gs packed).lines = unionMatch gl gs packed := by
  unfold unionCode unionMatch
  rw [Code.lines_sel, lines_unionArmsCode hl]
  simp

theorem run_unionCode {cfg : Cfg} {gc : Field → Nat → Bool → Code} {packed : Bool} {R : FieldDoes}
    (hR : Does cfg gc packed R) {E : Nat → Env → Prop} {gs : List Field} {fs : List FieldOps}
    (h : DenoteAll cfg E 0 gs fs) (st : St) (ht : HaveTypes gs st.core.fields)
    (hE : st.core.selector < gs.length → E st.core.selector ⟨st.core.params, []⟩) :
    ((unionCode gc gs packed).run cfg st >>= fun st => .ok st.core)
      = match fs[st.core.selector]?, st.core.fields[st.core.selector]? with
        | some f, some v => R f st.core.selector ⟨st.core.params, []⟩ v st.core
        | _, _ => .panic := by
  unfold unionCode
  rw [Code.run_sel]
  exact run_unionArms hR st.core.selector [] st.core.fields st h rfl ht (by simpa using hE) (Nat.zero_le _)

theorem run_unionWrite {cfg : Cfg} (packed : Bool) {E : Nat → Env → Prop} {gs : List Field} {fs : List FieldOps}
    (h : DenoteAll cfg E 0 gs fs) (st : St) (ht : HaveTypes gs st.core.fields)
    (hE : st.core.selector < gs.length → E st.core.selector ⟨st.core.params, []⟩) :
    ((unionCode encodeCode gs packed).run cfg st >>= fun st => .ok st.core)
      = (encodeMember packed fs st.core.params st.core.selector st.core.fields st.core.node
          st.core.w >>= fun y => .ok { st.core with w := y.1, node := y.2 }) := by
  rw [run_unionCode (does_write cfg packed) h st ht hE]
  unfold encodeMember
  cases fs[st.core.selector]? <;> cases st.core.fields[st.core.selector]? <;> rfl

theorem run_unionSize {cfg : Cfg} (packed : Bool) {E : Nat → Env → Prop} {gs : List Field} {fs : List FieldOps}
    (h : DenoteAll cfg E 0 gs fs) (st : St) (ht : HaveTypes gs st.core.fields)
    (hE : st.core.selector < gs.length → E st.core.selector ⟨st.core.params, []⟩) :
    ((unionCode bitsizeCode gs packed).run cfg st >>= fun st => .ok st.core)
      = (bitsizeMember packed fs st.core.params st.core.selector st.core.fields st.core.node
          st.core.pos >>= fun y => .ok { st.core with pos := y.1, node := y.2 }) := by
  rw [run_unionCode (does_size cfg packed) h st ht hE]
  unfold bitsizeMember
  cases fs[st.core.selector]? <;> cases st.core.fields[st.core.selector]? <;> rfl

/-- Reading a member gives the fields of the union. -/
def decodeMemberFields (cfg : Cfg) (packed : Bool) (members : List FieldOps) (params : List Val)
    (sel : Nat) (fields : List Val) (n : Node) (r : Reader) : Res ((List Val × Node) × Reader) :=
  match members[sel]?, fields[sel]? with
  | some f, some old => do
    let ((v, n), r) ← f.decode cfg packed sel ⟨params, []⟩ old n r
    pure ((fields.set sel v, n), r)
  | _, _ => .panic

theorem decodeMember_eq (cfg : Cfg) (packed : Bool) (members : List FieldOps) (params : List Val)
    (sel : Nat) (fields : List Val) (n : Node) (r : Reader) :
    decodeMember cfg packed members params sel fields n r
      = (decodeMemberFields cfg packed members params sel fields n r >>= fun x =>
          .ok ((.union params sel x.1.1, x.1.2), x.2)) := by
  unfold decodeMember decodeMemberFields
  cases members[sel]? with
  | none => cases fields[sel]? <;> rfl
  | some f =>
    cases fields[sel]? with
    | none => rfl
    | some v =>
      simp only []
      cases f.decode cfg packed sel ⟨params, []⟩ v n r <;> rfl

theorem run_unionRead {cfg : Cfg} (packed : Bool) {E : Nat → Env → Prop} {gs : List Field} {fs : List FieldOps}
    (h : DenoteAll cfg E 0 gs fs) (st : St) (ht : HaveTypes gs st.core.fields)
    (hE : st.core.selector < gs.length → E st.core.selector ⟨st.core.params, []⟩) :
    ((unionCode decodeCode gs packed).run cfg st >>= fun st => .ok st.core)
      = (decodeMemberFields cfg packed fs st.core.params st.core.selector st.core.fields st.core.node
          st.core.r >>= fun x => .ok { st.core with r := x.2, node := x.1.2, fields := x.1.1 }) := by
  rw [run_unionCode (does_read cfg packed) h st ht hE]
  unfold decodeMemberFields
  cases fs[st.core.selector]? with
  | none => cases st.core.fields[st.core.selector]? <;> rfl
  | some f =>
    cases st.core.fields[st.core.selector]? with
    | none => rfl
    | some v =>
      simp only [readDoes]
      cases f.decode cfg packed st.core.selector ⟨st.core.params, []⟩ v st.core.node st.core.r <;> rfl

theorem denoteAll_length {cfg : Cfg} {E : Nat → Env → Prop} : ∀ {i : Nat} {gs : List Field} {fs : List FieldOps},
    DenoteAll cfg E i gs fs → gs.length = fs.length
  | _, [], [], _ => rfl
  | _, [], _ :: _, h => h.elim
  | _, _ :: _, [], h => h.elim
  | _, _ :: _, _ :: _, h => congrArg (· + 1) (denoteAll_length h.2)

theorem run_readSelector {cfg : Cfg} {E : Nat → Env → Prop} {gs : List Field} {fs : List FieldOps}
    (h : DenoteAll cfg E 0 gs fs) (st : St) :
    ((Code.one (.readSelector gs.length)).run cfg st >>= fun st => .ok st.core)
      = (readVarsize st.core.r >>= fun x => fromU32 fs x.1 >>= fun s => .ok (s, x.2)) >>= fun y =>
          .ok { st.core with r := y.2, selector := y.1 } := by
  rw [Code.run_one]
  simp only [Stmt.exec, fromU32, denoteAll_length h]
  cases readVarsize st.core.r with
  | ok x => obtain ⟨s, r⟩ := x; simp only [Res.ok_bind]; split <;> rfl
  | err e => rfl
  | panic => rfl

theorem run_writeSelector {cfg : Cfg} (st : St) :
    ((Code.one .writeSelector).run cfg st >>= fun st => .ok st.core)
      = (writeVarsize st.core.w (asU32 st.core.selector) >>= fun w =>
          .ok { st.core with w := w }) := by
  rw [Code.run_one]
  simp only [Stmt.exec]
  cases writeVarsize st.core.w (asU32 st.core.selector) <;> rfl

theorem run_addSelector {cfg : Cfg} (st : St) :
    ((Code.one .addSelector).run cfg st >>= fun st => .ok st.core)
      = (varsizeBitsize (asU32 st.core.selector) >>= fun n =>
          .ok { st.core with pos := st.core.pos + n }) := by
  rw [Code.run_one]
  simp only [Stmt.exec]
  cases varsizeBitsize (asU32 st.core.selector) <;> rfl

theorem run_unionWriteAll {cfg : Cfg} (packed : Bool) {E : Nat → Env → Prop} {gs : List Field} {fs : List FieldOps}
    (h : DenoteAll cfg E 0 gs fs) (st : St) (ht : HaveTypes gs st.core.fields)
    (hE : st.core.selector < gs.length → E st.core.selector ⟨st.core.params, []⟩) :
    ((Code.one .writeSelector ++ unionCode encodeCode gs packed).run cfg st >>= fun st => .ok st.core)
      = ((writeVarsize st.core.w (asU32 st.core.selector) >>= fun w =>
          encodeMember packed fs st.core.params st.core.selector st.core.fields st.core.node w) >>=
          fun y => .ok { st.core with w := y.1, node := y.2 }) := by
  rw [bind_assoc']
  refine seq_core (run_writeSelector st) fun w _ st' hst => ?_
  rw [run_unionWrite packed h st' (by rw [hst]; exact ht) (by rw [hst]; exact hE), hst]

theorem run_unionSizeAll {cfg : Cfg} {E : Nat → Env → Prop} {gs : List Field} {fs : List FieldOps}
    (h : DenoteAll cfg E 0 gs fs) (st : St) (ht : HaveTypes gs st.core.fields)
    (hE : st.core.selector < gs.length → E st.core.selector ⟨st.core.params, []⟩) :
    ((Code.one .addSelector ++ unionCode bitsizeCode gs false).run cfg st >>= fun st => .ok st.core)
      = ((varsizeBitsize (asU32 st.core.selector) >>= fun s =>
          bitsizeMember false fs st.core.params st.core.selector st.core.fields st.core.node
            (st.core.pos + s)) >>=
          fun y => .ok { st.core with pos := y.1, node := y.2 }) := by
  rw [bind_assoc']
  refine seq_core (run_addSelector st) fun w _ st' hst => ?_
  rw [run_unionSize false h st' (by rw [hst]; exact ht) (by rw [hst]; exact hE), hst]

theorem run_unionReadAll {cfg : Cfg} {E : Nat → Env → Prop} {gs : List Field} {fs : List FieldOps}
    (h : DenoteAll cfg E 0 gs fs) (st : St) (ht : HaveTypes gs st.core.fields)
    (hE : ∀ i r, readVarsize st.core.r = .ok (i, r) → i < gs.length → E i ⟨st.core.params, []⟩) :
    ((Code.one (.readSelector gs.length) ++ unionCode decodeCode gs false).run cfg st >>=
        fun st => .ok st.core)
      = ((readVarsize st.core.r >>= fun x => fromU32 fs x.1 >>= fun s => .ok (s, x.2)) >>= fun y =>
          decodeMemberFields cfg false fs st.core.params y.1 st.core.fields st.core.node y.2 >>=
            fun z => .ok (y.1, z)) >>= fun x =>
          .ok { st.core with selector := x.1, r := x.2.2, node := x.2.1.2, fields := x.2.1.1 } := by
  rw [bind_assoc']
  refine seq_core (run_readSelector h st) fun y hy st' hst => ?_
  have hE' : y.1 < gs.length → E y.1 ⟨st.core.params, []⟩ := by
    obtain ⟨⟨s, r⟩, hx, hy⟩ := (Res.bind_eq_ok).1 hy
    obtain ⟨t, ht, hy⟩ := (Res.bind_eq_ok).1 hy
    simp only [Res.ok.injEq] at hy
    subst hy
    unfold fromU32 at ht
    split at ht
    · cases ht; exact hE s r hx
    · cases ht
  rw [run_unionRead false h st' (by rw [hst]; exact ht) (by rw [hst]; exact hE'), hst, bind_assoc']
  rfl

theorem union_implements {cfg : Cfg} {E : Nat → Env → Prop} (params : List Val) {gs : List Field} {fs : List FieldOps}
    (h : DenoteAll cfg E 0 gs fs) :
    Implements cfg (unionBodies gs) (unionCodec cfg params fs) asUnion
      (UnionOk E gs) where
  write k ht hn := executes_of
    (Code.one .writeSelector ++ unionCode encodeCode gs false ++ Code.one .okUnit)
    (by rw [Code.lines_append, Code.lines_append, lines_unionCode lines_encodeCode]; rfl)
    ((run_okUnit _ _ _).trans (run_unionWriteAll false h (St.start k) ht.1 ht.2))
    (by simp only [unionCodec, asUnion, St.start, hn, bind_assoc']; rfl)
  writePacked k ht := executes_of
    (Code.one .writeSelector ++ unionCode encodeCode gs true ++ Code.one .okUnit)
    (by rw [Code.lines_append, Code.lines_append, lines_unionCode lines_encodeCode]; rfl)
    ((run_okUnit _ _ _).trans (run_unionWriteAll true h (St.start k) ht.1 ht.2))
    (bind_eta _)
  read k ht hn := executes_of
    (Code.one (.readSelector gs.length) ++ unionCode decodeCode gs false ++ Code.one .okUnit)
    (by rw [Code.lines_append, Code.lines_append, lines_unionCode lines_decodeCode]; rfl)
    ((run_okUnit _ _ _).trans (run_unionReadAll h (St.start k) ht.1 ht.2))
    (by
      simp only [unionCodec, asUnion, St.start, hn, bind_assoc', decodeMember_eq]
      rfl)
  readPacked k ht := executes_of (unionCode decodeCode gs true ++ Code.one .okUnit)
    (by rw [Code.lines_append, lines_unionCode lines_decodeCode]; rfl)
    ((run_okUnit _ _ _).trans (run_unionRead true h (St.start k) ht.1 ht.2))
    (by simp only [unionCodec, asUnion, St.start, decodeMember_eq])
  bitsize k ht hn := executes_of
    (Code.one .letEnd ++ (Code.one .addSelector ++ unionCode bitsizeCode gs false)
      ++ Code.one .okSize)
    (by rw [Code.lines_append, Code.lines_append, Code.lines_append,
          lines_unionCode lines_bitsizeCode]; rfl)
    (run_size (run_unionSizeAll h (St.start k).ended ht.1 ht.2))
    (by simp only [unionCodec, asUnion, St.start, St.ended, Core.sized, hn, bind_assoc']; rfl)
  bitsizePacked k ht := executes_of
    (Code.one .letEnd ++ unionCode bitsizeCode gs true ++ Code.one .okSize)
    (by rw [Code.lines_append, Code.lines_append, lines_unionCode lines_bitsizeCode]; rfl)
    (run_size (run_unionSize true h (St.start k).ended ht.1 ht.2))
    (by simp only [unionCodec, asUnion, St.start, St.ended, Core.sized]; rfl)
  create k hn := executes_of (β := Unit) (R := .ok ()) (upd := fun _ => k) .nil rfl rfl
    (by simp [unionCodec, hn])
  init k ht := executes_of (β := Unit) (R := .ok ()) (upd := fun _ => k) (Code.one .okUnit) rfl rfl
    rfl

/-! ## Enums and bitmasks -/

theorem _root_.Zs.Spec.IsNumber.get {rust : RustTy} {number : Val → Res Val} {k : Core}
    (h : IsNumber rust number k) :
    ∃ v, number (asNumber k) = .ok v ∧ HasRust rust v ∧
      ∀ st : St, st.core.fields = k.fields → st.get (.number number) = .ok v := by
  obtain ⟨x, v, hk, hn, ht⟩ := h
  refine ⟨v, by rw [asNumber, hk]; exact hn, ht, fun st hst => ?_⟩
  simp only [St.get, hst, hk]
  exact hn

theorem rust_inScope (ty : RefTy) (scope : Env → Env) : (ty.inScope scope).rust = ty.rust := by
  cases ty <;> rfl

theorem run_numberWrite {cfg : Cfg} {ty : RefTy} {ops : TypeOps} (h : IsType cfg NoObject ty ops)
    (hp : ops.isPackable = true) {number : Val → Res Val} {k : Core}
    (hk : IsNumber ty.rust number k) (packed : Bool) :
    ∃ c : Code, c.lines = encodeType (ty.inScope outside) (.number number) 0 packed ∧
      (c.run cfg (St.start k) >>= fun st => .ok st.core)
        = ((number (asNumber k) >>= fun v =>
            FieldOps.encodeType ⟨{}, ops⟩ packed 0 ⟨[], []⟩ v k.node k.w) >>= fun y =>
          .ok { k with w := y.1, node := y.2 }) := by
  obtain ⟨v, hv, -, hg⟩ := hk.get
  obtain ⟨s, hs, hr⟩ := encodeType_exec h outside (.number number) 0 packed {} (fun _ => hp)
  refine ⟨Code.one s, hs.symm, ?_⟩
  rw [Code.run_one, hr (St.start k) v rfl (hg _ rfl), hv, Res.ok_bind]
  show (FieldOps.encodeType ⟨{}, ops⟩ packed 0 ⟨[], []⟩ v k.node k.w >>= wrote (St.start k)) >>= _ = _
  cases FieldOps.encodeType ⟨{}, ops⟩ packed 0 ⟨[], []⟩ v k.node k.w <;> rfl

theorem run_numberSize {cfg : Cfg} {ty : RefTy} {ops : TypeOps} (h : IsType cfg NoObject ty ops)
    (hp : ops.isPackable = true) {number : Val → Res Val} {k : Core}
    (hk : IsNumber ty.rust number k) (packed : Bool) :
    ∃ c : Code, c.lines = bitsizeType (ty.inScope outside) (.number number) 0 packed ∧
      (c.run cfg (St.start k).ended >>= fun st => .ok st.core)
        = ((number (asNumber k) >>= fun v =>
            FieldOps.bitsizeType ⟨{}, ops⟩ packed 0 ⟨[], []⟩ v k.node k.start) >>= fun y =>
          .ok { k with pos := y.1, node := y.2 }) := by
  obtain ⟨v, hv, ht, hg⟩ := hk.get
  obtain ⟨s, hs, hr⟩ := bitsizeType_exec h outside (.number number) 0 packed {} (fun _ => hp)
  refine ⟨Code.one s, hs.symm, ?_⟩
  rw [Code.run_one, hr (St.start k).ended v rfl (hg _ rfl) ht, hv, Res.ok_bind]
  show (FieldOps.bitsizeType ⟨{}, ops⟩ packed 0 ⟨[], []⟩ v k.node k.start
    >>= added (St.start k).ended) >>= _ = _
  cases FieldOps.bitsizeType ⟨{}, ops⟩ packed 0 ⟨[], []⟩ v k.node k.start <;> rfl

/-- `*self = ..` after reading the number. -/
theorem run_assignItem {cfg : Cfg} {item : Val → Res Val} (st : St) :
    ((Code.one (.assignItem item)).run cfg st >>= fun st => .ok st.core)
      = (item st.loc.x >>= fun v => .ok { st.core with fields := [v] }) := by
  rw [Code.run_one]
  simp only [Stmt.exec]
  cases item st.loc.x <;> rfl

theorem run_numberRead {cfg : Cfg} {ty : RefTy} {ops : TypeOps} (h : IsType cfg NoObject ty ops)
    (hp : ops.isPackable = true) (item : Val → Res Val) (packed : Bool) (st : St) :
    ∃ c : Code, c.lines = decodeType (ty.inScope outside) .x 0 packed ++ [.stmt (.assignItem item)] ∧
      (c.run cfg st >>= fun st => .ok st.core)
        = (FieldOps.decodeType ⟨{}, ops⟩ packed 0 ⟨[], []⟩ st.loc.x st.core.node st.core.r >>= fun x =>
            item x.1.1 >>= fun v => .ok (v, x)) >>= fun y =>
          .ok { st.core with r := y.2.2, node := y.2.1.2, fields := [y.1] } := by
  obtain ⟨s, hs, hr⟩ := decodeType_exec h outside .x 0 packed {} (fun _ => hp)
  refine ⟨Code.one s ++ Code.one (.assignItem item), by rw [Code.lines_append, hs]; rfl, ?_⟩
  rw [Code.run_append, Code.run_one, hr st st.loc.x rfl rfl]
  show ((FieldOps.decodeType ⟨{}, ops⟩ packed 0 ⟨[], []⟩ st.loc.x st.core.node st.core.r
    >>= wasRead st .x) >>= _) >>= _ = _
  cases FieldOps.decodeType ⟨{}, ops⟩ packed 0 ⟨[], []⟩ st.loc.x st.core.node st.core.r with
  | ok x =>
    simp only [Res.ok_bind, wasRead]
    rw [run_assignItem]
    simp only [bind_assoc', Res.ok_bind]
    rfl
  | err e => rfl
  | panic => rfl

theorem run_initNumber {cfg : Cfg} {name : BName} {bits : Nat} {length : Option LenExpr} {s : Scalar}
    (h : IsScalar NoObject name bits length s) {number : Val → Res Val} {k : Core} {v : Val}
    (hv : (St.start k).get (.number number) = .ok v) :
    ((Code.one (.initNumber (initTrait ((RefTy.builtin name bits length).inScope outside))
        ((RefTy.builtin name bits length).inScope outside).rust (.number number))).run cfg
        (St.start k) >>= fun st => .ok st.core)
      = (k.node.onChild 0 (fun c => do
          let c ← (s.ops cfg).initContext ⟨[], []⟩ v c
          pure ((), c)) >>= fun y => .ok { k with node := y.2 }) := by
  have ht := initTrait_eval (IsType.scalar (cfg := cfg) h) outside (St.start k).env rfl
  rw [Code.run_one]
  simp only [Stmt.exec]
  rw [ht]
  simp only [Res.ok_bind, hv]
  have hd2 : (fun c : Node => c.onContext fun d => do
        let d ← d.init (s.elem cfg ⟨[], []⟩) v
        pure ((), d))
      = (fun c : Node => do
        let c ← (s.ops cfg).initContext ⟨[], []⟩ v c
        pure ((), c)) := by
    funext c
    simp only [Scalar.ops, Elem.packable]
    obtain ⟨cs, d⟩ := c
    cases d with
    | none => rfl
    | some d =>
      simp only [Node.onContext]
      cases d.init (s.elem cfg ⟨[], []⟩) v <;> rfl
  rw [← hd2]
  show (onDelta k.node 0 _ >>= _) >>= _ = _
  rw [onDelta_eq]
  show (Node.onChild k.node 0 (fun c : Node => c.onContext fun d => do
        let d ← d.init (s.elem cfg ⟨[], []⟩) v
        pure ((), d)) >>= _) >>= _ = _
  cases Node.onChild k.node 0 (fun c : Node => c.onContext fun d => do
        let d ← d.init (s.elem cfg ⟨[], []⟩) v
        pure ((), d)) <;> rfl

theorem number_implements {cfg : Cfg} {name : BName} {bits : Nat} {length : Option LenExpr}
    {base : Scalar} (h : IsScalar NoObject name bits length base) (hp : base.isPackable = true) (dflt : Val)
    (number item : Val → Res Val) (own : Bool) :
    Implements cfg (numberBodies ((RefTy.builtin name bits length).inScope outside) number item own)
      (numberCodec cfg base dflt number item (if own then some DeltaContext.new else none)) asNumber
      (fun _ => IsNumber (rustName name) number) where
  write k hk hn := by
    obtain ⟨c, hc, hr⟩ := run_numberWrite (IsType.scalar (cfg := cfg) h) hp hk false
    refine executes_of (c ++ Code.one .okUnit) (by rw [Code.lines_append, hc]; rfl)
      ((run_okUnit _ _ _).trans hr) ?_
    simp only [numberCodec, FieldOps.encodeType, Bool.false_eq_true, if_false, bind_assoc', Res.ok_bind,
      Res.pure_eq, bind_eta]
    rfl
  writePacked k hk := by
    obtain ⟨c, hc, hr⟩ := run_numberWrite (IsType.scalar (cfg := cfg) h) hp hk true
    refine executes_of (c ++ Code.one .okUnit) (by rw [Code.lines_append, hc]; rfl)
      ((run_okUnit _ _ _).trans hr) ?_
    exact bind_eta _
  read k hk hn := by
    obtain ⟨c, hc, hr⟩ := run_numberRead (IsType.scalar (cfg := cfg) h) hp item false (St.start k)
    refine executes_of (c ++ Code.one .okUnit)
      (by rw [Code.lines_append, hc]; simp [numberBodies, Code.lines_one])
      ((run_okUnit cfg c (St.start k)).trans hr) ?_
    simp only [numberCodec, FieldOps.decodeType, Bool.false_eq_true, if_false, bind_assoc', Res.ok_bind,
      Res.pure_eq, asNumber]
    rfl
  readPacked k hk := by
    obtain ⟨c, hc, hr⟩ := run_numberRead (IsType.scalar (cfg := cfg) h) hp item true
      { St.start k with loc := { (St.start k).loc with x := base.dflt } }
    refine executes_of (Code.one (.letNumber _) ++ (c ++ Code.one .okUnit))
      (by rw [Code.lines_append, Code.lines_append, hc]; simp [numberBodies, Code.lines_one]; rfl)
      (upd := fun y : Val × ((Val × Node) × Reader) => { k with r := y.2.2, node := y.2.1.2, fields := [y.1] })
      (Eq.trans ?_ hr) ?_
    · rw [Code.run_append, Code.run_one]
      have hd := rust_default (IsType.scalar (cfg := cfg) h) outside
      simp only [Stmt.exec, Res.ok_bind, Res.pure_eq, hd]
      exact run_okUnit _ _ _
    · simp only [numberCodec, FieldOps.decodeType, if_true, bind_assoc', Res.ok_bind,
        Res.pure_eq, asNumber, St.start]
  bitsize k hk hn := by
    obtain ⟨c, hc, hr⟩ := run_numberSize (IsType.scalar (cfg := cfg) h) hp hk false
    refine executes_of (Code.one .letEnd ++ c ++ Code.one .okSize)
      (by rw [Code.lines_append, Code.lines_append, hc]; rfl) (run_size hr) ?_
    simp only [numberCodec, FieldOps.bitsizeType, Bool.false_eq_true, if_false, bind_assoc', Res.ok_bind,
      Res.pure_eq, Core.sized, Nat.add_sub_cancel_left]
    congr 1
    funext v
    exact bind_eta _
  bitsizePacked k hk := by
    obtain ⟨c, hc, hr⟩ := run_numberSize (IsType.scalar (cfg := cfg) h) hp hk true
    refine executes_of (Code.one .letEnd ++ c ++ Code.one .okSize)
      (by rw [Code.lines_append, Code.lines_append, hc]; rfl) (run_size hr) ?_
    simp only [numberCodec, FieldOps.bitsizeType, if_true, bind_assoc', Core.sized]
    congr 1
    funext v
    rw [show (base.ops cfg).fixedBits = base.fixedBits from rfl]
    cases base.fixedBits with
    | some n => simp
    | none =>
      simp only [bind_assoc', Res.ok_bind, Res.pure_eq, Nat.add_sub_cancel_left]
      exact bind_eta _
  create k hn := by
    cases own with
    | true =>
      exact executes_of (β := Unit) (R := .ok ())
        (upd := fun _ => { k with node := .mk [.mk [] (some DeltaContext.new)] (some DeltaContext.new) })
        (Code.one .setOwnContext ++ Code.one .pushDelta) rfl
        (by rw [Code.run_append, Code.run_one]; simp [Stmt.exec, Code.run_one, hn, St.start, St.withNode, Node.new, Node.children, Node.context]) rfl
    | false =>
      exact executes_of (β := Unit) (R := .ok ())
        (upd := fun _ => { k with node := .mk [.mk [] (some DeltaContext.new)] none })
        (Code.one .pushDelta) rfl
        (by simp [Stmt.exec, Code.run_one, hn, St.start, St.withNode, Node.new, Node.children, Node.context]) rfl
  init k hk := by
    obtain ⟨v, hv, -, hg⟩ := hk.get
    refine executes_of (Code.one (.initNumber _ _ _)) rfl (run_initNumber h (hg (St.start k) rfl)) ?_
    simp only [numberCodec, hv, Res.ok_bind]
    rfl

end Emit

end Zs
