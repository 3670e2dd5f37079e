import Verif.CompileSpec
import Verif.TextSpec
import Verif.SymbolsLemmas
import Verif.SourceLemmas

/-!
# Lemmas: from the text of a structure to what the generator looks at
-/

namespace Zs

open Ast Spec

variable {fo : FloatOps} {K : Constants fo.F} {round : List Char → fo.F} {display : fo.F → List Char}

/-- Floating-point literals with the operations of expressions. -/
abbrev Spec.floatText (fo : FloatOps) (round : List Char → fo.F) (display : fo.F → List Char) : FloatText :=
  ⟨fo.F, round, display⟩

/-! ## Expressions -/

theorem expr_visit {known : List String} {e : Src.Exp} {x : Expr fo.F} (h : Stands round known e x) :
    ∀ n, visitExp (floatText fo round display) e = .ok n → n.expr = some x := by
  induction h with
  | paren _ ih =>
    intro n hn
    simp only [visitExp, Res.bind_eq_ok, Res.ok.injEq] at hn
    obtain ⟨a, ha, rfl⟩ := hn
    simp [operatorNode, Ast.Node.expr, ih a ha]
  | elem _ _ ih1 ih2 =>
    intro n hn
    simp only [visitExp, Res.bind_eq_ok, Res.ok.injEq] at hn
    obtain ⟨a, ha, b, hb, rfl⟩ := hn
    simp [operatorNode, Ast.Node.expr, ih1 a ha, ih2 b hb]
  | isset _ _ ih1 ih2 =>
    intro n hn
    simp only [visitExp, Res.bind_eq_ok, Res.ok.injEq] at hn
    obtain ⟨a, ha, b, hb, rfl⟩ := hn
    simp [operatorNode, Ast.Node.expr, ih1 a ha, ih2 b hb]
  | lengthof _ ih =>
    intro n hn
    simp only [visitExp, Res.bind_eq_ok, Res.ok.injEq] at hn
    obtain ⟨a, ha, rfl⟩ := hn
    simp [operatorNode, Ast.Node.expr, ih a ha]
  | valueof _ ih =>
    intro n hn
    simp only [visitExp, Res.bind_eq_ok, Res.ok.injEq] at hn
    obtain ⟨a, ha, rfl⟩ := hn
    simp [operatorNode, Ast.Node.expr, ih a ha]
  | numbits _ ih =>
    intro n hn
    simp only [visitExp, Res.bind_eq_ok, Res.ok.injEq] at hn
    obtain ⟨a, ha, rfl⟩ := hn
    simp [operatorNode, Ast.Node.expr, ih a ha]
  | @unary op _ _ _ ih =>
    intro n hn
    simp only [visitExp, Res.bind_eq_ok, Res.ok.injEq] at hn
    obtain ⟨a, ha, rfl⟩ := hn
    cases op <;> simp [operatorNode, Src.UnOp.token, Ast.Node.expr, Tok.unary, unaryMeans, ih a ha]
  | @binary op _ _ _ _ _ _ ih1 ih2 =>
    intro n hn
    simp only [visitExp, Res.bind_eq_ok, Res.ok.injEq] at hn
    obtain ⟨a, ha, b, hb, rfl⟩ := hn
    cases op <;>
      simp [operatorNode, binaryNode, shiftToken, Src.BinOp.token, Ast.Node.expr, Tok.binary, binaryMeans, ih1 a ha,
        ih2 b hb]
  | ternary _ _ _ ih1 ih2 ih3 =>
    intro n hn
    simp only [visitExp, Res.bind_eq_ok, Res.ok.injEq] at hn
    obtain ⟨a, ha, b, hb, c, hc, rfl⟩ := hn
    simp [operatorNode, Ast.Node.expr, ih1 a ha, ih2 b hb, ih3 c hc]
  | @int l hw _ =>
    intro n hn
    simp only [visitExp, Res.bind_eq_ok, Res.ok.injEq, integer_value _ l hw] at hn
    obtain ⟨v, hv, rfl⟩ := hn
    split at hv <;> simp at hv
    subst hv
    simp [Ast.Node.expr, LitVal.expr]
  | true_ =>
    intro n hn
    simp only [visitExp, Res.bind_eq_ok, Res.ok.injEq] at hn
    obtain ⟨v, hv, rfl⟩ := hn
    simp [literalValue] at hv
    subst hv
    simp [Ast.Node.expr, LitVal.expr]
  | false_ =>
    intro n hn
    simp only [visitExp, Res.bind_eq_ok, Res.ok.injEq] at hn
    obtain ⟨v, hv, rfl⟩ := hn
    simp [literalValue] at hv
    subst hv
    simp [Ast.Node.expr, LitVal.expr]
  | string _ =>
    intro n hn
    simp only [visitExp, Res.bind_eq_ok, Res.ok.injEq] at hn
    obtain ⟨v, hv, rfl⟩ := hn
    simp only [literalValue] at hv
    rw [if_neg (by simp)] at hv
    simp at hv
    subst hv
    simp [Ast.Node.expr, LitVal.expr]
  | float _ =>
    intro n hn
    simp only [visitExp, Res.bind_eq_ok, Res.ok.injEq] at hn
    obtain ⟨v, hv, rfl⟩ := hn
    simp only [literalValue, parseF64] at hv
    split at hv <;> simp at hv
    subst hv
    rename_i h
    split at h <;> simp at h
    subst h
    simp [Ast.Node.expr, LitVal.expr]
  | id _ =>
    intro n hn
    simp only [visitExp, Res.ok.injEq] at hn
    subst hn
    simp [Ast.Node.expr]
  | dot _ ih =>
    intro n hn
    simp only [visitExp, Res.bind_eq_ok, Res.ok.injEq] at hn
    obtain ⟨a, ha, rfl⟩ := hn
    simp [operatorNode, Ast.Node.expr, ih a ha]
  | call _ =>
    intro n hn
    simp only [visitExp, Res.bind_eq_ok, Res.ok.injEq] at hn
    obtain ⟨a, rfl, rfl⟩ := hn
    simp [operatorNode, Ast.Node.expr]
  | method _ ih =>
    intro n hn
    simp only [visitExp, Res.bind_eq_ok, Res.ok.injEq] at hn
    obtain ⟨a, ⟨b, hb, rfl⟩, rfl⟩ := hn
    simp [operatorNode, Ast.Node.expr, ih b hb]

theorem exprOption_visit {known : List String} {e : Option Src.Exp} {x : Option (Expr fo.F)}
    (h : MayStand round known e x) (n : Option (Ast.Node fo.F))
    (hn : visitOption (visitExp (floatText fo round display)) e = .ok n) : exprOption n = some x := by
  cases e with
  | none =>
    simp only [visitOption, Res.ok.injEq] at hn
    subst hn
    cases x with
    | none => rfl
    | some _ => exact h.elim
  | some e =>
    simp only [visitOption, Res.bind_eq_ok, Res.ok.injEq] at hn
    obtain ⟨a, ha, rfl⟩ := hn
    cases x with
    | none => exact h.elim
    | some x => simp [exprOption, expr_visit h a ha]

/-! ## Types -/

/-- The name of a builtin type and the number behind the colon. -/
theorem scalar_seen {cfg : Cfg} {t : Src.Ty} {s : Scalar} (h : scalarOf t = some s) {F : Type} {r : Ast.TypeRef F}
    (hr : visitTy t = .ok r) : ∃ name bits n, r = .mk true [] name bits [] [] none ∧
      Emit.BName.ofString name = some n ∧
      ∀ E, IsType cfg E (.builtin n bits none) ((Ty.scalar s).ops cfg) := by
  unfold scalarOf at h
  split at h <;> try simp only [Option.some.injEq, reduceCtorEq] at h
  all_goals first
    | (subst h
       simp only [visitTy, Res.ok.injEq] at hr
       subst hr
       exact ⟨_, _, _, rfl, rfl, fun E => .scalar (by constructor)⟩)
    | (split at h <;> simp only [Option.some.injEq, reduceCtorEq] at h
       subst h
       simp only [visitTy] at hr
       split at hr <;> simp only [Res.ok.injEq, reduceCtorEq] at hr
       subst hr
       split
       · exact ⟨_, _, _, rfl, rfl, fun E => .scalar (.ints _ (by omega))⟩
       · exact ⟨_, _, _, rfl, rfl, fun E => .scalar (.bits _ (by omega))⟩)

theorem type_seen {cfg : Cfg} {md build : Mode} {sc : TScope} {O : Type} {look : Env → World fo.F O}
    {known : List String} {i : Src.Inst} {t : WrittenTy fo.F}
    (h : TypeStands round known i t) {r : Ast.TypeRef fo.F} (hr : visitInst (floatText fo round display) i = .ok r)
    {ref : Emit.RefTy} (hs : TypeSeen md sc build look r ref) : RunsType cfg md sc build look t ref := by
  cases h with
  | scalar hsc =>
    simp only [visitInst, Res.bind_eq_ok, Res.ok.injEq] at hr
    obtain ⟨r', hr, rfl⟩ := hr
    obtain ⟨name, bits, n, rfl, hn, hi⟩ := scalar_seen (cfg := cfg) hsc hr
    obtain ⟨-, m, hm, href⟩ := hs
    rw [hn] at hm
    cases hm
    simp only at href
    subst href
    exact hi _
  | bit he =>
    simp only [visitInst, visitTy, Res.bind_eq_ok, Res.ok.injEq] at hr
    obtain ⟨_, rfl, hr⟩ := hr
    simp only [Res.bind_eq_ok, Res.ok.injEq] at hr
    obtain ⟨l, hl, rfl⟩ := hr
    obtain ⟨-, m, hm, e, w, hle, hw, rfl⟩ := hs
    cases hm
    rw [expr_visit he l hl] at hle
    cases hle
    exact ⟨w, rfl, hw⟩
  | int he =>
    simp only [visitInst, visitTy, Res.bind_eq_ok, Res.ok.injEq] at hr
    obtain ⟨_, rfl, hr⟩ := hr
    simp only [Res.bind_eq_ok, Res.ok.injEq] at hr
    obtain ⟨l, hl, rfl⟩ := hr
    obtain ⟨-, m, hm, e, w, hle, hw, rfl⟩ := hs
    cases hm
    rw [expr_visit he l hl] at hle
    cases hle
    exact ⟨w, rfl, hw⟩

theorem zty_builtin (name : String) :
    (Emit.BName.ofString name).bind Emit.BName.zty = exprTypeOf (.builtin name) := by
  unfold Emit.BName.ofString
  split
  any_goals rfl
  unfold exprTypeOf
  split <;> simp_all

theorem names_types {F : Type} (K : Constants F) : K.names.types = K.types := by
  funext n
  simp only [Ast.Names.types, Constants.names, Constants.types]
  cases K.enums n with
  | some e => rfl
  | none =>
   cases K.masks n with
   | some b => rfl
   | none =>
    show (if (K.objects n).isSome = true then _ else _) = (K.objects n).map _
    cases K.objects n <;> rfl

theorem zty_visit {F : Type} {T : String → Option ZTy} {t : Src.Ty} {r : Ast.TypeRef F} (h : visitTy t = .ok r) :
    r.zty T = typeIn T t := by
  cases t with
  | builtin name =>
    simp only [visitTy, Res.ok.injEq] at h
    subst h
    exact zty_builtin name
  | fixedBits signed bits =>
    simp only [visitTy] at h
    split at h <;> simp only [Res.ok.injEq, reduceCtorEq] at h
    subst h
    cases signed <;> rfl
  | named f r as =>
    simp only [visitTy, Res.bind_eq_ok, Res.ok.injEq] at h
    obtain ⟨_, _, rfl⟩ := h
    simp only [Ast.TypeRef.zty, typeIn]

theorem zty_inst {T : String → Option ZTy} {fl : FloatText} {i : Src.Inst} {r : Ast.TypeRef fl.F} (h : visitInst fl i = .ok r) :
    r.zty T = typeIn T i.type := by
  obtain ⟨t, as⟩ := i
  simp only [visitInst, Res.bind_eq_ok] at h
  obtain ⟨⟨b, p, n, w, ts, as', l⟩, hr, h⟩ := h
  rw [← zty_visit (T := T) hr]
  cases as with
  | none => simp only [Res.ok.injEq] at h; rw [h]
  | args f r =>
    simp only [Res.bind_eq_ok, Res.ok.injEq] at h
    obtain ⟨_, _, rfl⟩ := h
    cases b <;> rfl
  | length e =>
    simp only [Res.bind_eq_ok, Res.ok.injEq] at h
    obtain ⟨_, _, rfl⟩ := h
    cases b <;> rfl

theorem zty_names {F : Type} {K : Constants F} {t : Src.Ty} {G : Type} {r : Ast.TypeRef G} (h : visitTy t = .ok r) :
    r.zty K.names.types = typeIn K.types t := by rw [zty_visit h, names_types]

/-! ## Lists -/

theorem visitList_map {α β γ : Type} {f : α → Res β} {u : α → γ} {v : β → γ}
    (h : ∀ a b, f a = .ok b → v b = u a) : ∀ {as : List α} {bs : List β}, visitList f as = .ok bs →
    bs.map v = as.map u
  | [], bs, hb => by
    simp only [visitList, Res.ok.injEq] at hb
    subst hb
    rfl
  | a :: as, bs, hb => by
    simp only [visitList, Res.bind_eq_ok, Res.ok.injEq] at hb
    obtain ⟨b, h1, cs, h2, rfl⟩ := hb
    simp [h a b h1, visitList_map h h2]

theorem visitList_any {α β : Type} {f : α → Res β} {q : α → Prop} {p : β → Bool} :
    ∀ {as : List α} {bs : List β}, (∀ a ∈ as, ∀ b, f a = .ok b → (p b = true ↔ q a)) →
    visitList f as = .ok bs → (bs.any p = true ↔ ∃ a ∈ as, q a)
  | [], bs, _, hb => by
    simp only [visitList, Res.ok.injEq] at hb
    subst hb
    simp
  | a :: as, bs, h, hb => by
    simp only [visitList, Res.bind_eq_ok, Res.ok.injEq] at hb
    obtain ⟨b, h1, cs, h2, rfl⟩ := hb
    simp [h a (List.mem_cons_self ..) b h1, visitList_any (fun a ha => h a (List.mem_cons_of_mem _ ha)) h2]

/-! ## Names -/

/-- What is found under a name. -/
def foundIn {β : Type} (l : List (String × Option β)) (n : String) : Option β :=
  (l.find? fun p => p.1 = n).bind Prod.snd

theorem foundIn_map {α β : Type} (name : α → String) (val : α → Option β) (as : List α) (n : String) :
    (as.find? fun a => name a = n).bind val = foundIn (as.map fun a => (name a, val a)) n := by
  simp only [foundIn, List.find?_map, Option.bind_map, Function.comp_def]

theorem find_reverse {α : Type} (name : α → String) (n : String) : ∀ {as : List α}, (as.map name).Nodup →
    (as.reverse.find? fun a => name a = n) = as.find? fun a => name a = n
  | [], _ => rfl
  | a :: as, h => by
    simp only [List.map_cons, List.nodup_cons, List.mem_map, not_exists, not_and] at h
    rw [List.reverse_cons, List.find?_append, find_reverse name n h.2, List.find?_cons]
    by_cases ha : name a = n
    · have : as.find? (fun a => name a = n) = none := by
        rw [List.find?_eq_none]
        intro b hb
        have := h.1 b hb
        simp_all
      simp [this, ha]
    · simp [ha]

theorem insertAll_none {α β : Type} (name : α → String) (value : α → β) (n : String) :
    ∀ (as : List α) (m : Map β), Map.insertAll name value as m n = none ↔ n ∉ as.map name ∧ m n = none
  | [], m => by simp [Map.insertAll]
  | a :: as, m => by
    simp only [Map.insertAll, insertAll_none name value n as, Map.insert, List.map_cons, List.mem_cons, not_or]
    by_cases h : n = name a
    · simp [h]
    · simp [h]

theorem insertAll_found {α β γ : Type} (name : α → String) (value : α → β) (g : β → Option γ) (as : List α)
    (m : Map β) (n : String) (h : (as.map name).Nodup) :
    (Map.insertAll name value as m n).bind g =
      if n ∈ as.map name then foundIn (as.map fun a => (name a, g (value a))) n else (m n).bind g := by
  rw [insertAll_get, find_reverse name n h, ← foundIn_map]
  cases hf : as.find? fun a => name a = n with
  | none =>
    rw [List.find?_eq_none] at hf
    rw [if_neg]
    simp only [List.mem_map, not_exists, not_and]
    intro a ha
    simpa using hf a ha
  | some a =>
    rw [if_pos]
    · rfl
    · exact List.mem_map.2 ⟨a, List.mem_of_find?_eq_some hf, by simpa using List.find?_some hf⟩

theorem foundIn_append {β : Type} (l m : List (String × Option β)) (n : String)
    (h : (l.map Prod.fst ++ m.map Prod.fst).Nodup) :
    foundIn (l ++ m) n = if n ∈ m.map Prod.fst then foundIn m n else foundIn l n := by
  unfold foundIn
  rw [List.find?_append]
  by_cases hn : n ∈ m.map Prod.fst
  · rw [if_pos hn]
    have : l.find? (fun p => p.1 = n) = none := by
      rw [List.find?_eq_none]
      intro p hp hpn
      rw [List.nodup_append] at h
      exact h.2.2 p.1 (List.mem_map.2 ⟨p, hp, rfl⟩) n hn (by simpa using hpn)
    simp [this]
  · rw [if_neg hn]
    have : m.find? (fun p => p.1 = n) = none := by
      rw [List.find?_eq_none]
      intro p hp hpn
      exact hn (List.mem_map.2 ⟨p, hp, by simpa using hpn⟩)
    simp [this]

/-- The parameters of the text, with their types. -/
def paramNames (T : String → Option ZTy) (s : Src.Struct) : List (String × Option Symb) :=
  s.params.map fun p => (p.name, (typeIn T p.type).map (⟨·, .plain⟩))

/-- The fields of the text, with their types. -/
def fieldNames (T : String → Option ZTy) (s : Src.Struct) : List (String × Option Symb) :=
  s.fields.map fun f => (f.typeId.name, (typeIn T f.typeId.type.type).map (⟨·, shapeOf f⟩))

theorem members_names (T : String → Option ZTy) (s : Src.Struct) :
    (membersOf T s).map (fun m => (m.name, m.symb)) = paramNames T s ++ fieldNames T s := by
  have hp : ∀ {α β : Type} (l : List α) (k : Nat) (f : α → β), (l.zipIdx k).map (fun p => f p.1) = l.map f := by
    intro α β l k f
    induction l generalizing k with
    | nil => rfl
    | cons a l ih => simp [List.zipIdx_cons, ih]
  simp only [membersOf, paramNames, fieldNames, List.map_append, List.map_map, Function.comp_def]
  rw [hp s.params 0 (fun p => (p.name, (typeIn T p.type).map fun t => (⟨t, .plain⟩ : Symb))),
    hp s.fields 0 (fun f => (f.typeId.name, (typeIn T f.typeId.type.type).map fun t => (⟨t, shapeOf f⟩ : Symb)))]

theorem memberNamed_symb (T : String → Option ZTy) (s : Src.Struct) (n : String) :
    (memberNamed T s n).bind Member.symb = foundIn (paramNames T s ++ fieldNames T s) n := by
  rw [memberNamed, foundIn_map, members_names]

/-! ## Structures -/

variable {fl : FloatText}

theorem visitStructField_parts {f : Src.StructField} {x : Ast.Field fl.F} (h : visitStructField fl f = .ok x) :
    x.name = f.typeId.name ∧ visitInst fl f.typeId.type = .ok x.type ∧
    visitOption (fun length => do
      let l ← visitOption (visitExp fl) length
      .ok { packed := f.typeId.packed, implicit_ := f.typeId.implicit_, length := l : Ast.Array fl.F })
      f.typeId.array = .ok x.array ∧
    x.optional = f.optional ∧ x.alignment = alignSays f.align ∧
    visitOption (visitExp fl) f.offset = .ok x.offset ∧ visitOption (visitExp fl) f.clause = .ok x.clause := by
  simp only [visitStructField, visitFieldTypeId, Res.bind_eq_ok, Res.ok.injEq] at h
  obtain ⟨_, ⟨t, ht, r, hr, rfl⟩, a, ha, o, ho, i, hi, c, hc, k, hk, rfl⟩ := h
  exact ⟨rfl, ht, hr, rfl, reads_align ha, ho, hc⟩

theorem shape_visit {f : Src.StructField} {x : Ast.Field fl.F} (h : visitStructField fl f = .ok x) :
    x.shape = shapeOf f := by
  obtain ⟨-, -, ha, ho, -⟩ := visitStructField_parts h
  unfold Ast.Field.shape shapeOf
  rw [ho]
  cases hf : f.typeId.array <;> rw [hf] at ha <;> simp only [visitOption, Res.bind_eq_ok, Res.ok.injEq] at ha
  · rw [← ha]; cases f.optional <;> rfl
  · obtain ⟨_, _, ha⟩ := ha
    rw [← ha]; cases f.optional <;> rfl

theorem names_symb {F : Type} (K : Constants F) (n : String) : K.names.symb n = K.symb n := by
  simp only [Names.symb, Constants.symb, Constants.names, Option.map_map]
  cases K.ty n with
  | some t => rfl
  | none => cases K.enums n <;> rfl

/-- Without functions, the symbol table of the visited structure is the one the text says. -/
theorem scope_plain {F : Type} {K : Constants F} {s : Src.Struct} {d : Ast.Struct fl.F} (h : visitStruct fl s = .ok d)
    (hf : s.functions = []) (hn : (s.params.map Src.Param.name ++ s.fields.map fun f => f.typeId.name).Nodup) :
    (d.scope K.names) = textScope K s := by
  simp only [visitStruct, Res.bind_eq_ok, Res.ok.injEq] at h
  obtain ⟨ps, hps, fs, hfs, us, hus, rfl⟩ := h
  rw [hf] at hus
  simp only [visitList, Res.ok.injEq] at hus
  subst hus
  have hp : ps.map (fun p => (p.name, (Ast.Symbol.param p).symb K.names.types)) = paramNames K.types s :=
    visitList_map (f := visitParam) (by
      intro a b hb
      simp only [visitParam, Res.bind_eq_ok, Res.ok.injEq] at hb
      obtain ⟨t, ht, rfl⟩ := hb
      simp [Ast.Symbol.symb, names_types, zty_visit ht]) hps
  have hff : fs.map (fun f => (f.name, (Ast.Symbol.field f).symb K.names.types)) = fieldNames K.types s :=
    visitList_map (f := visitStructField fl) (by
      intro a b hb
      obtain ⟨h1, h2, -⟩ := visitStructField_parts hb
      simp [Ast.Symbol.symb, h1, names_types, zty_inst h2, shape_visit hb]) hfs
  have hpn : ps.map Ast.Param.name = s.params.map Src.Param.name := by
    have := congrArg (List.map Prod.fst) hp
    simpa [paramNames, Function.comp_def] using this
  have hfn : fs.map Ast.Field.name = s.fields.map fun f => f.typeId.name := by
    have := congrArg (List.map Prod.fst) hff
    simpa [fieldNames, Function.comp_def] using this
  have hident : ∀ n, (structSymbols ⟨s.name, s.templates, ps, fs, []⟩ n).bind (Ast.Symbol.symb K.names.types) =
      (memberNamed K.types s n).bind Member.symb := by
    intro n
    have hnd := hn
    rw [List.nodup_append] at hnd
    rw [memberNamed_symb, foundIn_append _ _ _ (by simpa [paramNames, fieldNames, Function.comp_def] using hn)]
    simp only [structSymbols, Map.insertAll]
    rw [insertAll_found _ _ _ _ _ _ (by rw [hfn]; exact hnd.2.1), hff,
      insertAll_found _ _ _ _ _ _ (by rw [hpn]; exact hnd.1), hp]
    have h1 : (fieldNames K.types s).map Prod.fst = fs.map Ast.Field.name := by
      rw [hfn]; simp [fieldNames, Function.comp_def]
    rw [h1]
    by_cases hm : n ∈ fs.map Ast.Field.name
    · rw [if_pos hm, if_pos hm]
    · rw [if_neg hm, if_neg hm]
      by_cases hm : n ∈ ps.map Ast.Param.name
      · rw [if_pos hm]
      · rw [if_neg hm]
        have : (paramNames K.types s).find? (fun p => p.1 = n) = none := by
          rw [List.find?_eq_none]
          intro p hp' hpn'
          rw [← hp] at hp'
          obtain ⟨q, hq, rfl⟩ := List.mem_map.1 hp'
          exact hm (List.mem_map.2 ⟨q, hq, by simpa using hpn'⟩)
        simp [foundIn, this, Map.empty]
  have hnone : ∀ n, structSymbols (⟨s.name, s.templates, ps, fs, []⟩ : Ast.Struct fl.F) n = none ↔
      memberNamed K.types s n = none := by
    intro n
    have hm : memberNamed K.types s n = none ↔ n ∉ (membersOf K.types s).map Member.name := by
      simp only [memberNamed, List.find?_eq_none, List.mem_map, not_exists, not_and]
      exact forall_congr' fun m => forall_congr' fun _ => by simp
    have hmn : (membersOf K.types s).map Member.name =
        s.params.map Src.Param.name ++ s.fields.map fun f => f.typeId.name := by
      have := congrArg (List.map Prod.fst) (members_names K.types s)
      simpa [paramNames, fieldNames, Function.comp_def] using this
    rw [hm, hmn, structSymbols, insertAll_none, insertAll_none, insertAll_none, hfn, hpn]
    simp only [List.map_nil, List.not_mem_nil, not_false_eq_true, true_and, Map.empty, and_true, List.mem_append, not_or]
    exact And.comm
  unfold Ast.Struct.scope textScope
  congr 1
  funext n
  have h1 := hident n
  have h2 := hnone n
  cases ha : structSymbols (⟨s.name, s.templates, ps, fs, []⟩ : Ast.Struct fl.F) n <;> cases hb : memberNamed K.types s n <;>
    rw [ha, hb] at h1 h2
  · simp only [funcNamed, hf, List.find?_nil]
    exact names_symb K n
  · exact absurd (h2.1 rfl) (by simp)
  · exact absurd (h2.2 rfl) (by simp)
  · exact h1

theorem visitFunc_parts {f : Src.Func} {g : Ast.Func fl.F} (h : visitFunc fl f = .ok g) :
    g.name = f.name ∧ visitTy f.type = .ok g.returnType ∧ visitExp fl f.body = .ok g.result := by
  simp only [visitFunc, Res.bind_eq_ok, Res.ok.injEq] at h
  obtain ⟨r, hr, t, ht, rfl⟩ := h
  exact ⟨rfl, ht, hr⟩

/-- The functions that the visitor finds. -/
theorem func_visit {s : Src.Struct} {d : Ast.Struct fl.F} (h : visitStruct fl s = .ok d) (n : String) :
    match funcNamed s n, d.functions.find? (fun f => f.name = n) with
    | some f, some g => visitFunc fl f = .ok g
    | none, none => True
    | _, _ => False := by
  simp only [visitStruct, Res.bind_eq_ok, Res.ok.injEq] at h
  obtain ⟨ps, hps, fs, hfs, us, hus, rfl⟩ := h
  unfold funcNamed
  show match s.functions.find? _, us.find? (fun f => f.name = n) with
    | some f, some g => visitFunc fl f = .ok g
    | none, none => True
    | _, _ => False
  generalize s.functions = l at hus
  induction l generalizing us with
  | nil =>
    simp only [visitList, Res.ok.injEq] at hus
    subst hus
    trivial
  | cons a l ih =>
    simp only [visitList, Res.bind_eq_ok, Res.ok.injEq] at hus
    obtain ⟨b, hb, bs, hbs, rfl⟩ := hus
    simp only [List.find?_cons, (visitFunc_parts hb).1]
    by_cases hn : a.name = n
    · simp only [hn, decide_true]
      exact hb
    · simp only [hn, decide_false]
      exact ih _ hbs

theorem func_no_member (T : String → Option ZTy) {s : Src.Struct}
    (hn : (s.params.map Src.Param.name ++ (s.fields.map fun f => f.typeId.name) ++ s.functions.map Src.Func.name).Nodup)
    {n : String} {f : Src.Func} (hs : funcNamed s n = some f) : memberNamed T s n = none := by
  rw [List.nodup_append] at hn
  have hmn : (membersOf T s).map Member.name =
      s.params.map Src.Param.name ++ s.fields.map fun f => f.typeId.name := by
    have := congrArg (List.map Prod.fst) (members_names T s)
    simpa [paramNames, fieldNames, Function.comp_def] using this
  simp only [memberNamed, List.find?_eq_none]
  intro m hm hmn'
  refine hn.2.2 m.name ?_ f.name (List.mem_map.2 ⟨f, List.mem_of_find?_eq_some hs, rfl⟩) ?_
  · rw [← hmn]
    exact List.mem_map.2 ⟨m, hm, rfl⟩
  · have := List.find?_some hs
    simp only [decide_eq_true_eq] at this hmn'
    rw [this, hmn']

/-- The symbol table of the visited structure is the one the text says. -/
theorem scope_visit {F : Type} {K : Constants F} {s : Src.Struct} {d : Ast.Struct fl.F} (h : visitStruct fl s = .ok d)
    (hn : (s.params.map Src.Param.name ++ (s.fields.map fun f => f.typeId.name) ++ s.functions.map Src.Func.name).Nodup) :
    (d.scope K.names) = textScope K s := by
  have hfun := func_visit h
  have hnd := hn
  rw [List.nodup_append] at hn
  obtain ⟨hn1, hn2, hn3⟩ := hn
  have h0 : visitStruct fl { s with functions := [] } = .ok { d with functions := [] } := by
    simp only [visitStruct, Res.bind_eq_ok, Res.ok.injEq] at h ⊢
    obtain ⟨ps, hps, fs, hfs, us, hus, rfl⟩ := h
    exact ⟨ps, hps, fs, hfs, [], rfl, rfl⟩
  have hplain := scope_plain (K := K) h0 rfl hn1
  have hnames : d.functions.map Ast.Func.name = s.functions.map Src.Func.name := by
    simp only [visitStruct, Res.bind_eq_ok, Res.ok.injEq] at h
    obtain ⟨ps, hps, fs, hfs, us, hus, rfl⟩ := h
    exact visitList_map (f := visitFunc fl) (fun a b hb => (visitFunc_parts hb).1) hus
  have hid : ∀ n, (d.scope K.names).ident n = (textScope K s).ident n := by
    intro n
    have hpn := congrFun (congrArg TScope.ident hplain) n
    have hget : structSymbols d n = ((d.functions.find? fun f => f.name = n).map Ast.Symbol.func).or
        (structSymbols { d with functions := [] } n) := by
      simp only [structSymbols, Map.insertAll]
      rw [insertAll_get, find_reverse _ _ (by rw [hnames]; exact hn2)]
      cases d.functions.find? fun f => f.name = n <;> rfl
    have hf := hfun n
    simp only [Ast.Struct.scope, textScope, hget] at hpn ⊢
    cases hs : funcNamed s n with
    | none =>
      rw [hs] at hf
      cases hd : d.functions.find? fun f => f.name = n with
      | some g => rw [hd] at hf; exact hf.elim
      | none => exact hpn
    | some f =>
      rw [hs] at hf
      cases hd : d.functions.find? fun f => f.name = n with
      | none => rw [hd] at hf; exact hf.elim
      | some g =>
        rw [hd] at hf
        rw [func_no_member K.types hnd hs]
        show (Ast.Symbol.func g).symb K.names.types = _
        simp only [Ast.Symbol.symb, names_types, zty_visit (visitFunc_parts hf).2.1]
  unfold Ast.Struct.scope textScope at hid ⊢
  congr 1
  funext n
  exact hid n

/-! ## Offsets -/

theorem offset_visit {s : Src.Struct} {e : Option Src.Exp} {o : Offset} (h : OffsetStands s e o) {n : Option (Ast.Node fl.F)}
    (hn : visitOption (visitExp fl) e = .ok n) : Ast.offsetKind n = o := by
  cases h <;> simp only [visitOption, visitExp, Res.bind_eq_ok, Res.ok.injEq] at hn
  · subst hn; rfl
  · obtain ⟨_, rfl, rfl⟩ := hn
    simp [Ast.offsetKind, Ast.Node.hasIndex, Ast.nodesHaveIndex]
  · obtain ⟨_, ⟨_, rfl, _, rfl, rfl⟩, rfl⟩ := hn
    simp [Ast.offsetKind, operatorNode, Ast.Node.hasIndex, Ast.nodesHaveIndex]

theorem offset_marks {s : Src.Struct} {e : Option Src.Exp} {o : Offset} (h : OffsetStands s e o) {n : Option (Ast.Node fl.F)}
    (hn : visitOption (visitExp fl) e = .ok n) (name : String) :
    Ast.offsetIn name n = true ↔ OffsetIn name e := by
  cases h <;> simp only [visitOption, visitExp, Res.bind_eq_ok, Res.ok.injEq] at hn
  · subst hn; simp [Ast.offsetIn, OffsetIn]
  · obtain ⟨_, rfl, rfl⟩ := hn
    simp [Ast.offsetIn, OffsetIn, Ast.Node.offsetName, Ast.Node.token, Ast.Node.text, String.toList_inj]
  · obtain ⟨_, ⟨_, rfl, _, rfl, rfl⟩, rfl⟩ := hn
    simp [Ast.offsetIn, OffsetIn, operatorNode, Ast.Node.offsetName, Ast.Node.token, Ast.Node.text, Ast.Node.operands,
      String.toList_inj]

theorem fields_stand_mem {F : Type} {round : List Char → F} {s : Src.Struct} :
    ∀ {known : List String} {fs : List Src.StructField} {ws : List (Written F)},
    FieldsStand round s known fs ws → ∀ f ∈ fs, ∃ known w, FieldStands round s known f w
  | _, [], _, _, f, hf => by cases hf
  | _, g :: fs, [], h, _, _ => h.elim
  | _, g :: fs, w :: ws, h, f, hf => by
    rcases List.mem_cons.1 hf with rfl | hf
    · exact ⟨_, _, h.1⟩
    · exact fields_stand_mem h.2 f hf

/-! ## Fields -/

theorem field_seen {cfg : Cfg} {md build : Mode} {O : Type} {look : Env → World fo.F O} {s : Src.Struct}
    {ws : List (Written fo.F)} (hs : StructStands round s ws)
    {d : Ast.Struct fo.F} (hd : visitStruct (floatText fo round display) s = .ok d) {known : List String}
    {f : Src.StructField} {w : Written fo.F} (hf : FieldStands round s known f w)
    {x : Ast.Field fo.F} (hx : visitStructField (floatText fo round display) f = .ok x) {g : Emit.Field}
    (hg : SeenAs md build look K.names d x g) : EmittedFor cfg md (textScope K s) build look w g := by
  have hsc : (d.scope K.names) = textScope K s := scope_plain hd hs.functions hs.names
  obtain ⟨h1, h2, h3, h4, h5, h6, h7⟩ := visitStructField_parts hx
  refine ⟨⟨?_, ?_, ?_, ?_, ?_, ?_, ?_, ?_⟩, ?_⟩
  · rw [hg.optional, h4, hf.optional]
  · obtain ⟨e, he, hr⟩ := hg.clause
    rw [exprOption_visit hf.clause _ h7] at he
    cases he
    rw [← hsc]
    exact hr
  · rw [hg.alignment, h5, hf.alignment]
  · rw [hg.offset]
    exact offset_visit hf.offset h6
  · have ha := hf.array
    have hga := hg.array
    cases hw : w.array with
    | none =>
      rw [hw] at ha
      have ha : f.typeId.array = none := ha
      rw [ha] at h3
      simp only [visitOption, Res.ok.injEq] at h3
      rw [← h3] at hga
      have hga : g.array = none := hga
      rw [hga]
      trivial
    | some a =>
      obtain ⟨p, e⟩ := a
      rw [hw] at ha
      obtain ⟨rfl, -, e', he', hm⟩ := ha
      rw [he'] at h3
      simp only [visitOption, Res.bind_eq_ok, Res.ok.injEq] at h3
      obtain ⟨_, ⟨l, hl, rfl⟩, h3⟩ := h3
      rw [← h3] at hga
      obtain ⟨y, hy, hr⟩ := hga
      rw [exprOption_visit hm l hl] at hy
      cases hy
      rw [← hsc]
      exact hr
  · rw [hf.args, hg.args]
    trivial
  · rw [hg.isOffsetField, Bool.eq_iff_iff, hf.isOffsetField]
    simp only [visitStruct, Res.bind_eq_ok, Res.ok.injEq] at hd
    obtain ⟨ps, hps, fs, hfs, us, hus, rfl⟩ := hd
    refine visitList_any ?_ hfs
    intro a ha b hb
    obtain ⟨_, _, hst⟩ := fields_stand_mem hs.fields a ha
    obtain ⟨-, -, -, -, -, hb6, -⟩ := visitStructField_parts hb
    rw [h1]
    exact offset_marks hst.offset hb6 _
  · intro h
    exact absurd hg.args h
  · exact type_seen hf.ty h2 (hsc ▸ hg.ty)

theorem fields_seen {cfg : Cfg} {md build : Mode} {O : Type} {look : Env → World fo.F O} {s : Src.Struct}
    {ws : List (Written fo.F)} (hs : StructStands round s ws)
    {d : Ast.Struct fo.F} (hd : visitStruct (floatText fo round display) s = .ok d) :
    ∀ {known : List String} {fs : List Src.StructField} {vs : List (Written fo.F)},
    FieldsStand round s known fs vs → ∀ {xs : List (Ast.Field fo.F)},
    visitList (visitStructField (floatText fo round display)) fs = .ok xs → ∀ {gs : List Emit.Field},
    SeenAll md build look K.names d xs gs → EmittedAll cfg md (textScope K s) build look vs gs
  | _, [], [], _, xs, hx, gs, hg => by
    simp only [visitList, Res.ok.injEq] at hx
    subst hx
    cases gs with
    | nil => trivial
    | cons _ _ => exact hg.elim
  | _, [], _ :: _, h, _, _, _, _ => h.elim
  | _, _ :: _, [], h, _, _, _, _ => h.elim
  | _, f :: fs, v :: vs, h, xs, hx, gs, hg => by
    simp only [visitList, Res.bind_eq_ok, Res.ok.injEq] at hx
    obtain ⟨x, hx1, xs, hx2, rfl⟩ := hx
    cases gs with
    | nil => exact hg.elim
    | cons g gs => exact ⟨field_seen hs hd h.1 hx1 hg.1, fields_seen hs hd h.2 hx2 hg.2⟩

end Zs
