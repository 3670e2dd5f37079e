import Verif.Array

/-!
# Values of generated types

The generated Rust code is typed; the model keeps all values in one type `Val`.  An operation that is
applied to a value of the wrong shape ends in `panic`; this cannot happen for the values allowed by
the properties (and cannot be written down in Rust).
-/

namespace Zs

deriving instance DecidableEq for BytesType
deriving instance DecidableEq for ExternType

/-- A Rust value of a generated or builtin type. -/
inductive Val where
  /-- `u8` .. `u64`, and `bits` of a bitmask -/
  | nat (n : Nat)
  /-- `i8` .. `i64` -/
  | int (i : Int)
  | bool (b : Bool)
  /-- `f32` as bit pattern -/
  | f32 (x : UInt32)
  /-- `f64` as bit pattern -/
  | f64 (x : UInt64)
  | str (s : String)
  | bytes (b : BytesType)
  | extern (b : ExternType)
  /-- the `i`-th variant of an enum -/
  | item (i : Nat)
  /-- `Vec<T>` -/
  | list (xs : List Val)
  /-- `Option<T>` -/
  | none
  | some (v : Val)
  /-- a struct generated for a zserio structure or choice: parameters and fields -/
  | obj (params fields : List Val)
  /-- a struct generated for a zserio union: parameters, selector, and one field per member -/
  | union (params : List Val) (selector : Nat) (fields : List Val)

namespace Val

mutual
/-- Derived `PartialEq`, used by the generated parameter checks and by `match` on a choice selector.
Simplified for floats: bit patterns are compared (`NaN != NaN` and `0.0 == -0.0` in Rust). -/
def beq : Val → Val → Bool
  | .nat a, .nat b => decide (a = b)
  | .int a, .int b => decide (a = b)
  | .bool a, .bool b => decide (a = b)
  | .f32 a, .f32 b => decide (a = b)
  | .f64 a, .f64 b => decide (a = b)
  | .str a, .str b => decide (a = b)
  | .bytes a, .bytes b => decide (a = b)
  | .extern a, .extern b => decide (a = b)
  | .item a, .item b => decide (a = b)
  | .list a, .list b => beqs a b
  | .none, .none => true
  | .some a, .some b => beq a b
  | .obj p f, .obj p' f' => beqs p p' && beqs f f'
  | .union p s f, .union p' s' f' => beqs p p' && decide (s = s') && beqs f f'
  | _, _ => false
/-- `PartialEq` of vectors. -/
def beqs : List Val → List Val → Bool
  | [], [] => true
  | a :: as, b :: bs => beq a b && beqs as bs
  | _, _ => false
end

mutual
theorem eq_of_beq : ∀ (a b : Val), beq a b = true → a = b
  | .nat _, b, h | .int _, b, h | .bool _, b, h | .f32 _, b, h | .f64 _, b, h | .str _, b, h
  | .bytes _, b, h | .extern _, b, h | .item _, b, h => by cases b <;> simp_all [beq]
  | .none, b, h => by cases b <;> simp_all [beq]
  | .list xs, b, h => by
    cases b <;> simp_all [beq]
    exact eq_of_beqs _ _ h
  | .some v, b, h => by
    cases b <;> simp_all [beq]
    exact eq_of_beq _ _ h
  | .obj p f, b, h => by
    cases b <;> simp_all [beq]
    exact ⟨eq_of_beqs _ _ h.1, eq_of_beqs _ _ h.2⟩
  | .union p s f, b, h => by
    cases b <;> simp_all [beq]
    exact ⟨eq_of_beqs _ _ h.1.1, eq_of_beqs _ _ h.2⟩
theorem eq_of_beqs : ∀ (a b : List Val), beqs a b = true → a = b
  | [], [], _ => rfl
  | [], _ :: _, h => by simp [beqs] at h
  | _ :: _, [], h => by simp [beqs] at h
  | a :: as, b :: bs, h => by
    simp only [beqs, Bool.and_eq_true] at h
    rw [eq_of_beq _ _ h.1, eq_of_beqs _ _ h.2]
end

mutual
theorem beq_self : ∀ a : Val, beq a a = true
  | .nat _ | .int _ | .bool _ | .f32 _ | .f64 _ | .str _ | .bytes _ | .extern _ | .item _
  | .none => by simp [beq]
  | .list xs => by simp [beq, beqs_self xs]
  | .some v => by simp [beq, beq_self v]
  | .obj p f => by simp [beq, beqs_self p, beqs_self f]
  | .union p s f => by simp [beq, beqs_self p, beqs_self f]
theorem beqs_self : ∀ a : List Val, beqs a a = true
  | [] => rfl
  | a :: as => by simp [beqs, beq_self a, beqs_self as]
end

instance : DecidableEq Val := fun a b =>
  if h : beq a b = true then isTrue (eq_of_beq a b h)
  else isFalse (fun e => h (e ▸ beq_self a))

/-- The parameters stored in an object. -/
def params : Val → List Val
  | .obj p _ => p
  | .union p _ _ => p
  | _ => []

/-- The object with other parameters. -/
def withParams (p : List Val) : Val → Val
  | .obj _ f => .obj p f
  | .union _ s f => .union p s f
  | v => v

end Val

/-- What an expression of the schema can look at: the parameters of the type and the fields in front
of the field it belongs to. -/
structure Env where
  params : List Val
  fields : List Val

end Zs
