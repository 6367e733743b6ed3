import Verif.Model.Select
/-!
# Specification: the functions called on each object
-/

set_option autoImplicit false

namespace Ckpt

variable {T : Type}

/-- One function after the other on one object. -/
def callAll : List (Visit T) → Visit T
  | [], s, x => .ok (x, s)
  | f :: fs, s, x => match f s x with
    | .ok (y, s') => callAll fs s' y
    | .throw e => .throw e
    | .abort => .abort
    | .ub u => .ub u
    | .fuel => .fuel

/-- On one object after the other. -/
def callEach (f : Visit T) : Ser → List T → Out (List T × Ser)
  | s, [] => .ok ([], s)
  | s, x :: xs => match f s x with
    | .ok (y, s') => match callEach f s' xs with
      | .ok (ys, s'') => .ok (y :: ys, s'')
      | .throw e => .throw e
      | .abort => .abort
      | .ub u => .ub u
      | .fuel => .fuel
    | .throw e => .throw e
    | .abort => .abort
    | .ub u => .ub u
    | .fuel => .fuel

/-- What the language implies: enumerations have no members. -/
structure Offers.Possible (o : Offers T) : Prop where
  enum : o.enum = true → (∀ k, o.member k = none ∧ o.parent k = none ∧ o.this k = none) ∧ o.virt = false

/-- Not marked as byte-copyable in any of the three ways. -/
def Offers.NotBytes (o : Offers T) : Prop := o.byteTag ≠ some true ∧ o.arith = false ∧ o.byteSpec = false

/-- The functions called on each object, for types that are not copied as bytes. -/
inductive Offers.Calls (o : Offers T) (k : Kind) : List (Visit T) → Prop
  /-- the member function -/
  | member {f : Visit T} : o.member k = some f → o.free k = none → (o.parent k = none ∨ o.this k = none) →
      Calls o k [f]
  /-- the member functions of a class that has all three -/
  | split {f p t : Visit T} : o.member k = some f → o.free k = none → o.parent k = some p → o.this k = some t →
      Calls o k [f, p, t]
  /-- the free function -/
  | free {g : Visit T} : o.member k = none → o.free k = some g → o.enum = false → Calls o k [g]
  /-- nothing is declared for the enumeration -/
  | enum : o.free k = none → o.enum = true → Calls o k [o.asInt]

end Ckpt
