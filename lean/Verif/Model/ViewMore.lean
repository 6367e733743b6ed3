import Verif.Model.View
import Verif.Model.KMap
/-!
# Further Kokkos classes: `DynRankView`, `DynamicView`, partial serializers of views, sparse graphs

src/checkpoint/container/view_serialize.h:150-324, 477-610 on a model of the parts of Kokkos they use (Kokkos is
not part of the repository; modelled after Kokkos_DynRankView.hpp, Kokkos_DynamicView.hpp,
Kokkos_StaticCrsGraph.hpp and KokkosSparse_CrsMatrix.hpp of 4.x).

Simplified: memory the host can access, so that `create_mirror_view` is the view itself.
-/

set_option autoImplicit false

namespace Ckpt

variable {T : Type}

/-! ## `Kokkos::DynRankView` -/

/-- `Kokkos::DynRankView<T, Layout>`: a view with one extent and stride per dimension it was made with (Kokkos
stores seven; the others are 1), or `DynRankView{}` (`made = false`). -/
structure DynRank (T : Type) where
  view : View T
  made : Bool

namespace DynRank
variable (v : DynRank T)

/-- `view.rank()`. -/
def rank : Nat := v.view.extents.length

/-- `view.size()`: 0 for `DynRankView{}`, whose seven stored extents are 0. -/
def size : Nat := if v.made then v.view.size else 0

end DynRank

/-- `DynRankView{}`. -/
def DynRank.empty : DynRank T :=
  { view := { label := [], extents := [], strides := [], span := 0, alloc := false, data := [] }, made := false }

/-- `computeRank(layout)`: up to the last dimension that is given, of seven. -/
def lastGiven : LayoutVal → Nat
  | [] => 0
  | p :: rest => if lastGiven rest = 0 ∧ p.1 = invalidIndex then 0 else lastGiven rest + 1

/-- `DynRankView(label, layout)`: dimensions that are not given have extent 1 (`createLayout`). -/
def DynRank.construct (l : Layout) (z : T) (label : Bytes) (lay : LayoutVal) : DynRank T :=
  let r := lastGiven (lay.take 7)
  { view := ViewTy.construct ⟨l, List.replicate r none, true⟩ z label
      (lay.map fun p => if p.1 = invalidIndex then (1, p.2) else p),
    made := true }

/-- Type information used for a `DynRankView`: `std::string`, the layout class, `unsigned` and the class itself. -/
structure DynTI where
  str : TI
  layout : TI
  uint : TI
  view : TI

/-- The elements (container/view_serialize.h:288-318): the memory as one array if contiguous; otherwise the
traversal for the number of dimensions that was serialized, of 1 to 7. -/
def serDynElems (cfg : Cfg) (e : Elem T) (dims num : Nat) (contig : Bool) (v : View T) (st : List T × Ser) :
    Out (List T × Ser) :=
  if contig then viewArray cfg e num st
  else if 1 ≤ dims ∧ dims ≤ 7 then
    traverseManual (viewElement cfg e v) ((List.range dims).map v.extent) [] st
  else if cfg.ndebug then .ok st else .abort

/-- The part of `serialize_impl(s, Kokkos::DynRankView&)` for a view that is not `DynRankView{}`
(container/view_serialize.h:266-324). -/
def serDynBody (cfg : Cfg) (e : Elem T) (dims num : Nat) (s : Ser) (v : View T) : Out (View T × Ser) := do
  let (contig, s) ← pipeBool cfg s v.contig
  let (init, s) ← pipeBool cfg s (if s.isUnpacking then false else v.alloc)
  if init then do
    let (data, s) ← serDynElems cfg e dims num contig v (v.data, s)
    .ok ({ v with data := data }, s)
  else .ok (v, s)

/-- The part after the number of elements (container/view_serialize.h:254-324). -/
def serDynRest (cfg : Cfg) (l : Layout) (e : Elem T) (label : Bytes) (dims : Nat) (lay : LayoutVal) (num : Nat)
    (s : Ser) (v : DynRank T) : Out (DynRank T × Ser) :=
  if dims = 0 ∧ num = 0 then .ok (if s.isUnpacking then .empty else v, s)
  else do
    let v := if s.isUnpacking then .construct l e.zero label lay else v
    let (w, s) ← serDynBody cfg e dims num s v.view
    .ok ({ v with view := w }, s)

/-- `serialize_impl(s, Kokkos::DynRankView<T>&)` (container/view_serialize.h:229-324). -/
def serDynRank (cfg : Cfg) (k : DynTI) (l : Layout) (e : Elem T) (s : Ser) (v : DynRank T) :
    Out (DynRank T × Ser) := do
  let (label, s) ← pipe cfg (strElem cfg k.str) s ⟨cfg.grow v.view.label.length, v.view.label⟩
  let (dims, s) ← pipe cfg (u32Elem cfg k.uint) s (if s.isUnpacking then 0 else v.rank)
  let (lay, s) ← pipe cfg (layoutElem cfg k.layout l) s (if s.isUnpacking then .default else v.view.layoutVal)
  let (num, s) ← pipeSize cfg s v.size
  serDynRest cfg l e label.chars dims lay num s v

/-- A `DynRankView` type for the generic code (`SerializeConst` of elements that are not `const`, 434-475). -/
def dynRankElem (cfg : Cfg) (k : DynTI) (l : Layout) (e : Elem T) : Elem (DynRank T) :=
  { ti := k.view, apply := dispatchEach (serDynRank cfg k l e), fresh := .empty, dflt := some .empty,
    copyable := true }

/-! ## `Kokkos::Experimental::DynamicView` -/

/-- `Kokkos::Experimental::DynamicView<T*>` that was made with a label: `m_chunk_shift`, `m_chunk_max` and the
elements up to `size()`.  `resize_serial` keeps as many chunks as these need. -/
structure DynamicView (T : Type) where
  label : Bytes
  shift : Nat
  maxChunks : Nat
  elems : List T

namespace DynamicView
variable (v : DynamicView T)

/-- `chunk_size()`. -/
def chunk : Nat := 2 ^ v.shift

/-- Number of chunks for `n` elements. -/
def chunksFor (n : Nat) : Nat := (n + (v.chunk - 1)) / v.chunk

/-- `size()`. -/
def size : Nat := v.elems.length

/-- `allocation_extent()`: elements in the chunks allocated now. -/
def allocExtent : Nat := v.chunksFor v.size * v.chunk

/-- `resize_serial(n)`: ends the program beyond the maximum. -/
def resize (z : T) (n : Nat) : Out (DynamicView T) :=
  if v.maxChunks < v.chunksFor n then .abort
  else .ok { v with elems := v.elems.take n ++ List.replicate (n - v.size) z }

end DynamicView

/-- `integral_power_of_two_that_contains(n)`: the least `k` with `n ≤ 2^k`, from `k` on for at most `fuel` steps. -/
def powerThatContains (n : Nat) : Nat → Nat → Nat
  | 0, k => k
  | fuel + 1, k => if n ≤ 2 ^ k then k else powerThatContains n fuel (k + 1)

/-- `DynamicView(label, min_chunk_size, max_extent)`, both numbers of type `unsigned`. -/
def DynamicView.construct (label : Bytes) (minChunk maxExtent : Nat) : DynamicView T :=
  let shift := powerThatContains minChunk 32 0
  { label := label, shift := shift, maxChunks := (maxExtent + (2 ^ shift - 1)) % 2 ^ 32 / 2 ^ shift, elems := [] }

/-- Reconstruction (container/view_serialize.h:183-190): the numbers are converted to `unsigned`. -/
def rebuildDynamic (z : T) (label : Bytes) (chunk maxExtent size : Nat) : Out (DynamicView T) :=
  (DynamicView.construct label (chunk % 2 ^ 32) (maxExtent % 2 ^ 32)).resize z size

/-- The view that is traversed. -/
def dynamicTarget (s : Ser) (z : T) (label : Bytes) (chunk maxExtent size : Nat) (v : DynamicView T) :
    Out (DynamicView T) :=
  if s.isUnpacking then rebuildDynamic z label chunk maxExtent size else .ok v

/-- `s | elm` for one element in `TraverseManual<.., 1>` (container/view_traverse_manual.h:147-170). -/
def dynamicElement (cfg : Cfg) (e : Elem T) (i : Nat) (st : List T × Ser) : Out (List T × Ser) :=
  match st.1[i]? with
  | none => .ub .badRegion
  | some x =>
    if st.2.isUnpacking then do
      let (y, s) ← pipe cfg e st.2 e.zero
      .ok (st.1.set i y, s)
    else do
      let (_, s) ← pipe cfg e st.2 x
      .ok (st.1, s)

/-- Type information used for a `DynamicView`. -/
structure DynamicTI where
  str : TI
  view : TI

/-- `serialize(s, Kokkos::Experimental::DynamicView<T>&)` (container/view_serialize.h:150-227).
Simplified: chunks are one list; elements of a new chunk are value-initialised (Kokkos leaves them as allocated,
all are assigned here). -/
def serDynamic (cfg : Cfg) (k : DynamicTI) (e : Elem T) (s : Ser) (v : DynamicView T) : Out (DynamicView T × Ser) := do
  let (label, s) ← pipe cfg (strElem cfg k.str) s ⟨cfg.grow v.label.length, v.label⟩
  let (chunk, s) ← pipeSize cfg s (if s.isUnpacking then 0 else v.chunk)
  let (maxExtent, s) ← pipeSize cfg s (if s.isUnpacking then 0 else v.allocExtent)
  let (size, s) ← pipeSize cfg s (if s.isUnpacking then 0 else v.size)
  let v ← dynamicTarget s e.zero label.chars chunk maxExtent size v
  let (elems, s) ← forLoop (dynamicElement cfg e) v.size 0 (v.elems, s)
  .ok ({ v with elems := elems }, s)

/-- A `DynamicView` type for the generic code.  The default-constructed object (not made with a label) is not
modelled, its `size()` reads a null pointer; the fields stand for an object that is only assigned to. -/
def dynamicElem (cfg : Cfg) (k : DynamicTI) (e : Elem T) : Elem (DynamicView T) :=
  { ti := k.view, apply := dispatchEach (serDynamic cfg k e), fresh := ⟨[], 0, 0, []⟩, dflt := some ⟨[], 0, 0, []⟩,
    copyable := true }

/-! ## Parts of views -/

/-- `Kokkos::deep_copy(dst, src)`: throws `std::runtime_error` (here `user 0`) if extents differ; nothing is copied if
one of them has no memory. -/
def View.deepCopyChecked (dst src : View T) : Out (View T) :=
  if dst.extents ≠ src.extents then .throw (.user 0)
  else if dst.alloc && src.alloc then dst.deepCopy src else .ok dst

/-- Copying back when reading. -/
def View.takeContents (v : View T) (s : Ser) (values : View T) : Out (View T) :=
  if s.isUnpacking then v.deepCopyChecked values else .ok v

/-- `serializeContentsOnly(s, v)` (container/view_serialize.h:583-589): `values` is a second handle of the same
view. -/
def serContentsOnly (cfg : Cfg) (k : ViewTI) (ty : ViewTy) (e : Elem T) (s : Ser) (v : View T) :
    Out (View T × Ser) := do
  let (values, s) ← pipe cfg (viewElem cfg k ty false e) s v
  let v ← v.takeContents s values
  .ok (v, s)

/-- `s | view_extent_0 | ..`. -/
def pipeSizes (cfg : Cfg) (s : Ser) : List Nat → Out (List Nat × Ser)
  | [] => .ok ([], s)
  | n :: ns => do
    let (n, s) ← pipeSize cfg s n
    let (ns, s) ← pipeSizes cfg s ns
    .ok (n :: ns, s)

/-- `ViewType(label, n0, ..)`; exists for `LayoutLeft` and `LayoutRight`. -/
def ViewTy.constructExtents (ty : ViewTy) (z : T) (label : Bytes) (extents : List Nat) : View T :=
  ty.construct z label (extents.map fun n => (n, 0))

/-- `serializeExtentOnly(s, v, label)` (container/view_serialize.h:477-581), which exists for 1 to 4 dimensions:
`N_DIMS` is the number of all dimensions, `v.extent(i)` the argument for each. -/
def serExtentOnly (cfg : Cfg) (ty : ViewTy) (z : T) (label : Bytes) (s : Ser) (v : View T) : Out (View T × Ser) := do
  let (extents, s) ← pipeSizes cfg s ((List.range ty.rank).map v.extent)
  .ok (if s.isUnpacking then ty.constructExtents z label extents else v, s)

/-! ## Sparse graphs and matrices -/

variable {E R B V O : Type}

/-- `Kokkos::StaticCrsGraph`. -/
structure CrsGraph (E R B : Type) where
  entries : View E
  rowMap : View R
  rowBlocks : View B

/-- The three members of a graph type; `row_map` is a view of `const` elements. -/
structure GraphTy (E R B : Type) where
  ti : TI
  entriesTI : ViewTI
  rowMapTI : ViewTI
  rowBlocksTI : ViewTI
  entriesTy : ViewTy
  rowMapTy : ViewTy
  rowBlocksTy : ViewTy

/-- `serialize(s, Kokkos::StaticCrsGraph&)` (container/view_serialize.h:592-595). -/
def serGraph (cfg : Cfg) (g : GraphTy E R B) (eE : Elem E) (eR : Elem R) (eB : Elem B) (s : Ser) (x : CrsGraph E R B) :
    Out (CrsGraph E R B × Ser) := do
  let (a, s) ← pipe cfg (viewElem cfg g.entriesTI g.entriesTy false eE) s x.entries
  let (b, s) ← pipe cfg (viewElem cfg g.rowMapTI g.rowMapTy true eR) s x.rowMap
  let (c, s) ← pipe cfg (viewElem cfg g.rowBlocksTI g.rowBlocksTy false eB) s x.rowBlocks
  .ok (⟨a, b, c⟩, s)

/-- A graph type for the generic code. -/
def graphElem (cfg : Cfg) (g : GraphTy E R B) (eE : Elem E) (eR : Elem R) (eB : Elem B) : Elem (CrsGraph E R B) :=
  { ti := g.ti, apply := dispatchEach (serGraph cfg g eE eR eB),
    fresh := ⟨g.entriesTy.empty, g.rowMapTy.empty, g.rowBlocksTy.empty⟩,
    dflt := some ⟨g.entriesTy.empty, g.rowMapTy.empty, g.rowBlocksTy.empty⟩, copyable := true }

/-- `KokkosSparse::CrsMatrix`; the label of the constructor is ignored there. -/
structure CrsMatrix (E R B V O : Type) where
  numCols : O
  graph : CrsGraph E R B
  values : View V

/-- `serialize(s, KokkosSparse::CrsMatrix&)` (container/view_serialize.h:597-610): the number of columns through a
local variable; the matrix is made anew from the parts read. -/
def serMatrix (cfg : Cfg) (g : GraphTy E R B) (k : ViewTI) (ty : ViewTy) (eO : Elem O) (eE : Elem E) (eR : Elem R)
    (eB : Elem B) (eV : Elem V) (s : Ser) (x : CrsMatrix E R B V O) : Out (CrsMatrix E R B V O × Ser) := do
  let (n, s) ← pipe cfg eO s x.numCols
  let (a, s) ← pipe cfg (graphElem cfg g eE eR eB) s x.graph
  let (b, s) ← pipe cfg (viewElem cfg k ty false eV) s x.values
  .ok (⟨if s.isUnpacking then n else x.numCols, a, b⟩, s)

/-- A matrix type for the generic code. -/
def matrixElem (cfg : Cfg) (ti : TI) (g : GraphTy E R B) (k : ViewTI) (ty : ViewTy) (eO : Elem O) (eE : Elem E)
    (eR : Elem R) (eB : Elem B) (eV : Elem V) : Elem (CrsMatrix E R B V O) :=
  { ti := ti, apply := dispatchEach (serMatrix cfg g k ty eO eE eR eB eV),
    fresh := ⟨eO.zero, (graphElem cfg g eE eR eB).fresh, ty.empty⟩,
    dflt := some ⟨eO.zero, (graphElem cfg g eE eR eB).fresh, ty.empty⟩, copyable := true }

end Ckpt

namespace Ckpt

/-! ## Classes using the partial serializers

A class with one view as member, whose `serialize` calls one of the functions for it. -/

variable {T : Type}

/-- `template <typename S> void serialize(S& s) { serializeContentsOnly(s, v); }`. -/
def contentsElem (cfg : Cfg) (ti : TI) (k : ViewTI) (ty : ViewTy) (e : Elem T) : Elem (View T) :=
  { ti := ti, apply := dispatchEach (serContentsOnly cfg k ty e), fresh := ty.empty, dflt := some ty.empty,
    copyable := true }

/-- `template <typename S> void serialize(S& s) { serializeExtentOnly(s, v, label); }`. -/
def extentElem (cfg : Cfg) (ti : TI) (ty : ViewTy) (z : T) (label : Bytes) : Elem (View T) :=
  { ti := ti, apply := dispatchEach (serExtentOnly cfg ty z label), fresh := ty.empty, dflt := some ty.empty,
    copyable := true }

end Ckpt
