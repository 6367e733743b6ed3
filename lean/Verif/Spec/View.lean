import Verif.Model.View
import Verif.Spec.Wire
import Mathlib.Data.List.Forall2
/-!
# Specification: Kokkos views

Which views exist (independent of serialization) and when a view is a faithful copy of another.
-/

set_option autoImplicit false

namespace Ckpt

variable {T : Type}

/-- Type information of a program. -/
structure ViewTI.Valid (k : ViewTI) : Prop where
  str : k.str.Valid
  layout : k.layout.Valid
  view : k.view.Valid

/-- `idx` is an index tuple within the extents. -/
def InRange (idx extents : List Nat) : Prop := List.Forall₂ (· < ·) idx extents

/-- Strides of a view of this layout without padding. -/
def Layout.compact : Layout → List Nat → Option (List Nat)
  | .left, ext => some (leftStrides 1 ext)
  | .right, ext => some (rightStrides ext)
  | .stride, _ => none

/-- The views of a type. -/
structure View.Ok (ty : ViewTy) (v : View T) : Prop where
  /-- Kokkos has at most 8 dimensions. -/
  rank_le : ty.rank ≤ 8
  extents : v.extents.length = ty.rank
  strides : v.strides.length = ty.rank
  static : ∀ (i n : Nat), ty.dims[i]? = some (some n) → v.extents[i]? = some n
  /-- all numbers are of type `size_t`. -/
  ext_lt : ∀ n ∈ v.extents, n < 2 ^ 64
  str_lt : ty.layout = .stride → ∀ n ∈ v.strides, n < 2 ^ 64
  size_lt : v.size < 2 ^ 64
  label_lt : v.label.length < 2 ^ 64
  /-- the memory of an allocated view. -/
  data : v.alloc = true → v.data.length = v.span
  inside : ∀ idx, InRange idx v.extents → v.offset idx < v.span
  /-- `span()` of a `LayoutStride` view. -/
  span : ty.layout = .stride → v.span = strideSpan v.extents v.strides
  /-- a `LayoutLeft` or `LayoutRight` view can be padded; then it is not contiguous. -/
  compact : ∀ st, ty.layout.compact v.extents = some st → v.span = v.size → v.strides = st
  scalar : ty.rank = 0 → v.span = 1

/-- `w` is a copy of `v`: label, extents, layout and, if `v` has memory, all elements; otherwise elements are
`z`.  Strides are those of
`v` for `LayoutStride`, and those without padding otherwise.  Memory that belongs to no element holds `z`, copies of it,
or copies of such memory of `v`. -/
structure View.Copy (ty : ViewTy) (z : T) (eq : T → T → Prop) (v w : View T) : Prop where
  label : w.label = v.label
  extents : w.extents = v.extents
  alloc : w.alloc = true
  strides : w.strides = (ty.layout.compact v.extents).getD v.strides
  elements : v.alloc = true → ∀ idx, InRange idx v.extents →
    ∃ x y, v.get? idx = some x ∧ w.get? idx = some y ∧ eq x y
  fresh : v.alloc = false → ∀ idx, InRange idx v.extents → w.get? idx = some z
  memory : ∀ y ∈ w.data, y = z ∨ ∃ x, (x = z ∨ x ∈ v.data) ∧ eq x y

end Ckpt
