import Verif.Model.ViewMore
import Verif.Spec.View
/-!
# Specification: `DynRankView`, `DynamicView`

Which objects exist and when one is a faithful copy of another.
-/

set_option autoImplicit false

namespace Ckpt

variable {T : Type}

/-- Type information of a program. -/
structure DynTI.Valid (k : DynTI) : Prop where
  str : k.str.Valid
  layout : k.layout.Valid
  uint : k.uint.Valid
  view : k.view.Valid

/-- Type information of a program. -/
structure DynamicTI.Valid (k : DynamicTI) : Prop where
  str : k.str.Valid
  view : k.view.Valid

/-- The type of views with `r` dimensions set at run time. -/
def rankTy (l : Layout) (r : Nat) : ViewTy := ⟨l, List.replicate r none, true⟩

/-- The objects of type `DynRankView`: default-constructed, or made with at most 7 dimensions (each different from
the marker of a dimension that is not given). -/
def DynRank.Ok (l : Layout) (v : DynRank T) : Prop :=
  v = .empty ∨ v.made = true ∧ v.view.Ok (rankTy l v.view.extents.length) ∧ v.view.extents.length ≤ 7 ∧
    ∀ n ∈ v.view.extents, n ≠ 2 ^ 64 - 1

/-- `w` is a copy of `v`. -/
def DynRank.Copy (l : Layout) (z : T) (eq : T → T → Prop) (v w : DynRank T) : Prop :=
  v = .empty ∧ w = .empty ∨
  v.made = true ∧ w.made = true ∧ v.view.Copy (rankTy l v.view.extents.length) z eq w.view

/-- The objects of type `DynamicView` that were made with a label and a minimal chunk size of at least 2. -/
structure DynamicView.Ok (v : DynamicView T) : Prop where
  shift_pos : 1 ≤ v.shift
  /-- `m_chunk_shift` is the number of a bit of `unsigned`. -/
  shift_lt : v.shift < 32
  /-- the maximal extent is of type `unsigned`. -/
  max_lt : v.maxChunks * 2 ^ v.shift < 2 ^ 32
  label_lt : v.label.length < 2 ^ 64
  /-- no more elements than the maximal number of chunks holds. -/
  room : v.elems.length ≤ v.maxChunks * 2 ^ v.shift

/-- Restored: label, chunk size and elements.  The maximum is lowered to the chunks in use. -/
structure DynamicView.Copy (eq : T → T → Prop) (v w : DynamicView T) : Prop where
  label : w.label = v.label
  shift : w.shift = v.shift
  elems : List.Forall₂ eq v.elems w.elems
  /-- the least maximum that holds the elements. -/
  max_enough : v.elems.length ≤ w.maxChunks * 2 ^ v.shift
  max_least : ∀ m, v.elems.length ≤ m * 2 ^ v.shift → w.maxChunks ≤ m

end Ckpt

namespace Ckpt

variable {T : Type}

/-- A view whose memory can take the elements of `v`: same extents, and different indices are different elements
inside of its memory. -/
structure View.Target (v y : View T) : Prop where
  extents : y.extents = v.extents
  alloc : y.alloc = true
  inside : ∀ idx, InRange idx v.extents → y.offset idx < y.data.length
  inj : ∀ i j, InRange i v.extents → InRange j v.extents → y.offset i = y.offset j → i = j

/-- `w` is `y` with the elements of `v` (elements `z` if `v` has no memory); everything else is as in `y`, also the
memory between the elements. -/
structure View.Filled (z : T) (eq : T → T → Prop) (v y w : View T) : Prop where
  label : w.label = y.label
  extents : w.extents = y.extents
  strides : w.strides = y.strides
  span : w.span = y.span
  alloc : w.alloc = y.alloc
  length : w.data.length = y.data.length
  elements : v.alloc = true → ∀ idx, InRange idx v.extents →
    ∃ a b, v.get? idx = some a ∧ w.get? idx = some b ∧ eq a b
  fresh : v.alloc = false → ∀ idx, InRange idx v.extents → w.get? idx = some z
  outside : ∀ k, (∀ idx, InRange idx v.extents → y.offset idx ≠ k) → w.data[k]? = y.data[k]?

/-- `w` is a new view with the extents of `v`: given label, elements `z`. -/
structure View.Shaped (ty : ViewTy) (z : T) (label : Bytes) (v w : View T) : Prop where
  label : w.label = label
  extents : w.extents = v.extents
  alloc : w.alloc = true
  elements : ∀ idx, InRange idx v.extents → w.get? idx = some z
  ok : w.label.length < 2 ^ 64 → w.Ok ty

variable {E R B V O : Type}

/-- A copy of a graph: each of its views. -/
structure CrsGraph.Copy (g : GraphTy E R B) (zE : E) (zR : R) (zB : B) (eqE : E → E → Prop) (eqR : R → R → Prop)
    (eqB : B → B → Prop) (x y : CrsGraph E R B) : Prop where
  entries : x.entries.Copy g.entriesTy zE eqE y.entries ∧ y.entries.Ok g.entriesTy
  rowMap : x.rowMap.Copy g.rowMapTy zR eqR y.rowMap ∧ y.rowMap.Ok g.rowMapTy
  rowBlocks : x.rowBlocks.Copy g.rowBlocksTy zB eqB y.rowBlocks ∧ y.rowBlocks.Ok g.rowBlocksTy

end Ckpt
