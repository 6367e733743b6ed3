import Verif.Model.Universe
/-!
# Specification: how deeply types nest
-/

set_option autoImplicit false

namespace Ckpt

/-- A set of types that contains with each type its parts, numbered from 1 to `depth` such that what an object contains
by value (members, elements of arrays, pairs and tuples) has a smaller number than the object.  What is held by a
container, an optional, a variant or a pointer may have any of the numbers. -/
structure Ranked (env : Env) (depth : Nat) (S : Ty → Prop) (rank : Ty → Nat) : Prop where
  pos : ∀ {t}, S t → 0 < rank t
  le : ∀ {t}, S t → rank t ≤ depth
  vec : ∀ {t}, S (.vec t) → S t
  seq : ∀ {k t}, S (.seq k t) → S t
  queue : ∀ {t}, S (.queue t) → S t
  oset : ∀ {a cmp t}, S (.oset a cmp t) → S t
  uset : ∀ {a eq t}, S (.uset a eq t) → S t
  opt : ∀ {t}, S (.opt t) → S t
  variant : ∀ {ts}, S (.variant ts) → ∀ t ∈ ts, S t
  uptr : ∀ {t}, S (.uptr t) → S t
  pair : ∀ {a b}, S (.pair a b) → (S a ∧ rank a < rank (.pair a b)) ∧ S b ∧ rank b < rank (.pair a b)
  tuple : ∀ {ts}, S (.tuple ts) → ∀ t ∈ ts, S t ∧ rank t < rank (.tuple ts)
  arr : ∀ {n t}, S (.arr n t) → S t ∧ rank t < rank (.arr n t)
  cls : ∀ {c}, S (.cls c) → ∀ t ∈ (env.cls c).fields, S t ∧ rank t < rank (.cls c)
  /-- an object of a virtually serializable class may be of any class derived from it. -/
  poly : ∀ {c}, S (.cls c) → (env.cls c).virt = true → ∀ d, c ∈ env.chain d → ∀ k ∈ env.chain d,
    ∀ t ∈ (env.cls k).fields, S t ∧ rank t < rank (.cls c)

/-- Between two containers, optionals, variants or pointers, objects of type `t` nest at most `depth` deep. -/
def NestsUpTo (env : Env) (depth : Nat) (t : Ty) : Prop := ∃ S rank, Ranked env depth S rank ∧ S t

end Ckpt
