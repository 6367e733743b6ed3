import Verif.Model.ViewShared
import Verif.Spec.Compose
/-!
# Specification: views that share memory
-/

set_option autoImplicit false

namespace Ckpt

variable {T : Type}

/-- The view refers to memory of `m`, or has none. -/
def VRef.In (r : VRef) (m : VMem T) : Prop := ∀ a o, r.place = some (a, o) → a < m.allocs.length

/-- The view refers to memory that is not of `m`. -/
def VRef.NewFor (r : VRef) (m : VMem T) : Prop := ∃ a o, r.place = some (a, o) ∧ m.allocs.length ≤ a

/-- The views do not refer to the same allocation. -/
def VRef.Apart (r r' : VRef) : Prop := ∀ a o a' o', r.place = some (a, o) → r'.place = some (a', o') → a ≠ a'

/-- The element with these indices is set through the view. -/
def VMem.write (m : VMem T) (r : VRef) (idx : List Nat) (x : T) : VMem T :=
  m.store r ((m.load r).data.set ((m.load r).offset idx) x)

/-- A type of views, and what can be written and is equal: any view can be read over, and what is read has memory of its
own. -/
structure ViewUse (R : RelMode) (cfg : Cfg) (env : Env) (t : CppType (View T)) (u : Usage (View T)) : Prop where
  composed : Composed R cfg env t u
  over : ∀ y, u.clean y
  memory : ∀ x w, u.same x w → w.alloc = true ∧ w.data.length = w.span

/-- `w` refers to equal views, each with an allocation of its own that is new for `m0`; what was in `m0` is as it was. -/
structure VMem.Restored (tus : List (CppType (View T) × Usage (View T))) (m : VMem T) (rs : List VRef) (m0 : VMem T)
    (w : VMem T × List VRef) : Prop where
  same : List.Forall₂ (fun (q : (CppType (View T) × Usage (View T)) × VRef) r' => q.1.2.same (m.load q.2) (w.1.load r'))
    (tus.zip rs) w.2
  apart : w.2.Pairwise VRef.Apart
  new : ∀ r ∈ w.2, r.NewFor m0
  rest : ∀ r : VRef, r.In m0 → w.1.load r = m0.load r

/-- The element at this position of an allocation. -/
def VMem.cell (m : VMem T) (a k : Nat) : Option T := m.allocs[a]?.bind fun p => p.2[k]?

/-- `w` is the memory `m0` with the elements of `v` where the view `r` has its elements (elements `z` if `v` has no memory);
all other memory is as it was. -/
structure VMem.FilledAt (z : T) (eq : T → T → Prop) (v : View T) (r : VRef) (m0 w : VMem T) : Prop where
  view : View.Filled z eq v (m0.load r) (w.load r)
  allocations : w.allocs.length = m0.allocs.length
  labels : ∀ a : Nat, (w.allocs[a]?.map fun p => p.1) = m0.allocs[a]?.map fun p => p.1
  others : ∀ a k, (∀ o idx, r.place = some (a, o) → InRange idx v.extents → o + (m0.load r).offset idx ≠ k) →
    w.cell a k = m0.cell a k

end Ckpt
