import Verif.Model.Shared
import Verif.Spec.Universe
import Mathlib.Data.List.Forall2
/-!
# Specification: shared pointers
-/

set_option autoImplicit false

namespace Ckpt

variable {T : Type}

/-- `a` points to an object with value `x`. -/
def SHeap.Holds (h : SHeap T) (a : SPtr) (x : T) : Prop := ∃ b o, a = some (b, o) ∧ h.objs[o]? = some (some x)

/-- `h'` is `h` with new objects `zs`, each with one owner of its own; `as` are these owners. -/
def SHeap.Gains (h : SHeap T) (zs : List T) (h' : SHeap T) (as : List SPtr) : Prop :=
  h'.objs = h.objs ++ zs.map some ∧
  h'.blocks = h.blocks ++ (List.range zs.length).map (fun i => (h.objs.length + i, 1)) ∧
  as = (List.range zs.length).map fun i => some (h.blocks.length + i, h.objs.length + i)

/-- The pointers of `x` point to objects of values `vs`, of which serialization through a pointer is claimed to work. -/
structure SharedWT (R : RelMode) (env : Env) (t : Ty) (x : SHeap Val × List SPtr) (vs : List Val) : Prop where
  holds : List.Forall₂ x.1.Holds x.2 vs
  count : vs.length < 2 ^ 64
  values : ∀ v ∈ vs, WT R env (.uptr t) (.ptr (some v))

/-- Two objects of the same class, if `t` is a class. -/
def SameClass (t : Ty) (v u : Val) : Prop := ∀ c, t = .cls c → ∃ d ps qs, v = .obj d ps ∧ u = .obj d qs

/-- Pointers with owner count `n` in a block `b` of their own for the object `o`, which has the value `u`. -/
def SHeap.Owned {T : Type} (h : SHeap T) (b o n : Nat) (u : T) : Prop :=
  h.blocks[b]? = some (o, n) ∧ h.objs[o]? = some (some u)

end Ckpt
