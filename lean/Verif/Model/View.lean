import Verif.Model.Containers
/-!
# Kokkos views

src/checkpoint/container/view_serialize.h, view_traverse_manual.h, view_traverse_ndim.h,
view_traits_extract.h and view_equality.h on a model of the parts of Kokkos they use.

Simplified: views are managed (view_serialize.h:332-335 asserts it) and not atomic; `data` is the memory
behind one view, sharing between views is not followed; views are allocated without padding unless the
layout asks for it, as `Kokkos::View(label, layout)` does.
-/

set_option autoImplicit false

namespace Ckpt

variable {T : Type}

/-! ## Traversal -/

/-- `for (i = 0; i < n; i++) body(i)`, from `i` for `n` steps. -/
def forLoop {σ : Type} (body : Nat → σ → Out σ) : Nat → Nat → σ → Out σ
  | 0, _, st => .ok st
  | n + 1, i, st => do
    let st ← body i st
    forLoop body n (i + 1) st

/-- `TraverseManual<SerializerT, ViewType, dims>` (container/view_traverse_manual.h:118-344): one loop per
dimension, the first outermost; the specializations for 1 to 8 dimensions differ only in their number.
`idx` are the indices of the loops around. -/
def traverseManual {σ : Type} (body : List Nat → σ → Out σ) : List Nat → List Nat → σ → Out σ
  | [], idx, st => body idx st
  | n :: ns, idx, st => forLoop (fun i st => traverseManual body ns (idx ++ [i]) st) n 0 st

/-- The loop of `TraverseRecurImplBase::applyImpl` (container/view_traverse_ndim.h:131-163): `neq += !ret` where
`ret` is what the child returns; `CountType` is `uint64_t`. -/
def countLoop {σ : Type} (child : Nat → σ → Out (Nat × σ)) : Nat → Nat → Nat → σ → Out (Nat × σ)
  | 0, _, neq, st => .ok (neq, st)
  | n + 1, i, neq, st => do
    let (ret, st) ← child i st
    countLoop child n (i + 1) ((neq + if ret = 0 then 1 else 0) % sizeMod) st

/-- `TraverseRecurImpl<..>::apply` (container/view_traverse_ndim.h:131-168, 189-247): recursion over the dimensions
of the data type, with the indices so far.  At the end the callable, which returns `bool`; its result
converts to `CountType` like the counts of inner dimensions.  For two views their extents agree (checked
at 136-138). -/
def traverseRecur {σ : Type} (call : List Nat → σ → Out (Bool × σ)) : List Nat → List Nat → σ → Out (Nat × σ)
  | [], idx, st => do
    let (b, st) ← call idx st
    .ok (b.toNat, st)
  | n :: ns, idx, st => countLoop (fun i st => traverseRecur call ns (idx ++ [i]) st) n 0 0 st

/-! ## Views -/

/-- `Kokkos::LayoutLeft`, `LayoutRight`, `LayoutStride`. -/
inductive Layout
  | left | right | stride
  deriving DecidableEq, Repr

/-- A type `Kokkos::View<T*..[N].., Layout, Space>`: layout, one entry per dimension (`some n` is a static
extent), and whether the memory space is accessible from the host. -/
structure ViewTy where
  layout : Layout
  dims : List (Option Nat)
  host : Bool := true
  deriving DecidableEq, Repr

/-- `ViewType::rank`; also `CountDims<ViewType>::numDims` (container/view_traits_extract.h:85-116). -/
def ViewTy.rank (ty : ViewTy) : Nat := ty.dims.length

/-- A view: label, extents, strides, `span()`, whether memory is allocated (`use_count() > 0 || data() !=
nullptr`) and the elements between `data()` and `data() + span()`. -/
structure View (T : Type) where
  label : Bytes
  extents : List Nat
  strides : List Nat
  span : Nat
  alloc : Bool
  data : List T

/-- `KOKKOS_INVALID_INDEX`. -/
def invalidIndex : Nat := sizeMod - 1

/-- A Kokkos layout object: `dimension[i]` and `stride[i]` for `ARRAY_LAYOUT_MAX_RANK = 8` dimensions. -/
abbrev LayoutVal := List (Nat × Nat)

namespace View
variable (v : View T)

/-- `view.size()`. -/
def size : Nat := v.extents.prod

/-- `view.span_is_contiguous()`. -/
def contig : Bool := v.span == v.size

/-- Where `operator()(idx...)` is, counted from `data()`. -/
def offset (idx : List Nat) : Nat := (List.zipWith (· * ·) idx v.strides).sum

/-- `view(idx...)`. -/
def get? (idx : List Nat) : Option T := v.data[v.offset idx]?

/-- `view.layout()`: unused entries are `KOKKOS_INVALID_INDEX`. -/
def layoutVal : LayoutVal :=
  v.extents.zip v.strides ++ List.replicate (8 - v.extents.length) (invalidIndex, invalidIndex)

end View

/-- The default-constructed layout object. -/
def LayoutVal.default : LayoutVal := List.replicate 8 (invalidIndex, invalidIndex)

/-- Strides of a `LayoutLeft` view without padding: first index fastest. -/
def leftStrides (acc : Nat) : List Nat → List Nat
  | [] => []
  | n :: ns => acc :: leftStrides (acc * n) ns

/-- Strides of a `LayoutRight` view without padding: last index fastest. -/
def rightStrides : List Nat → List Nat
  | [] => []
  | _ :: ns => ns.prod :: rightStrides ns

/-- `span()` of a `LayoutStride` view. -/
def strideSpan (extents strides : List Nat) : Nat :=
  if extents.prod = 0 then 0 else (List.zipWith (· * ·) extents strides).foldl max 1

/-- `ViewType(label, layout)`: a new allocation of value-initialised elements. -/
def ViewTy.construct (ty : ViewTy) (z : T) (label : Bytes) (lay : LayoutVal) : View T :=
  let extents := List.zipWith (fun d (p : Nat × Nat) => d.getD p.1) ty.dims lay
  let strides := match ty.layout with
    | .left => leftStrides 1 extents
    | .right => rightStrides extents
    | .stride => (lay.take ty.rank).map (·.2)
  let span := match ty.layout with
    | .left | .right => extents.prod
    | .stride => strideSpan extents strides
  { label := label, extents := extents, strides := strides, span := span, alloc := true,
    data := List.replicate span z }

/-- `ViewType{}`. -/
def ViewTy.empty (ty : ViewTy) : View T :=
  let extents := ty.dims.map (·.getD 0)
  let strides := match ty.layout with
    | .left => leftStrides 1 extents
    | .right => rightStrides extents
    | .stride => extents.map fun _ => 0
  { label := [], extents := extents, strides := strides,
    span := match ty.layout with | .left | .right => extents.prod | .stride => strideSpan extents strides,
    alloc := false, data := [] }

/-! ## Serialization -/

/-- Type information of `std::string`, of the layout class and of the view class. -/
structure ViewTI where
  str : TI
  layout : TI
  view : TI

/-- `std::string` as an element type. -/
def strElem (cfg : Cfg) (ti : TI) : Elem Str :=
  { ti := ti, apply := dispatchEach (serString cfg ti.sizeof), fresh := ⟨cfg.grow 0, []⟩,
    dflt := some ⟨cfg.grow 0, []⟩, copyable := true }

/-- `s | layout.stride[i]` (container/view_serialize.h:122): only for `LayoutStride`. -/
def serStride (cfg : Cfg) (l : Layout) (s : Ser) (st : Nat) : Out (Nat × Ser) :=
  if l = .stride then pipeSize cfg s st else .ok (st, s)

/-- `serialize(s, Kokkos::LayoutStride&)` and `serialize(s, Kokkos::LayoutLeft&)`, `LayoutRight&`
(container/view_serialize.h:117-137): a loop over the 8 entries. -/
def serLayout (cfg : Cfg) (l : Layout) (s : Ser) : LayoutVal → Out (LayoutVal × Ser)
  | [] => .ok ([], s)
  | (d, st) :: rest => do
    let (d, s) ← pipeSize cfg s d
    let (st, s) ← serStride cfg l s st
    let (rest, s) ← serLayout cfg l s rest
    .ok ((d, st) :: rest, s)

/-- A layout class as an element type. -/
def layoutElem (cfg : Cfg) (ti : TI) (l : Layout) : Elem LayoutVal :=
  { ti := ti, apply := dispatchEach (serLayout cfg l), fresh := .default, dflt := some .default, copyable := true }

/-- `BaseType val{}` and the elements of a new allocation. -/
def Elem.zero (e : Elem T) : T := e.dflt.getD e.fresh

/-- Body of the loops of `TraverseManual` for `dims > 0` (container/view_traverse_manual.h:147-344), and for
`dims = 0` (118-144) `s | v()`. -/
def viewElement (cfg : Cfg) (e : Elem T) (v : View T) (idx : List Nat) (st : List T × Ser) : Out (List T × Ser) :=
  match st.1[v.offset idx]? with
  | none => .ub .badRegion
  | some x =>
    if idx.length = 0 then do
      let (y, s) ← pipe cfg e st.2 x
      .ok (st.1.set (v.offset idx) y, s)
    else if st.2.isUnpacking then do
      let (y, s) ← pipe cfg e st.2 e.zero
      .ok (st.1.set (v.offset idx) y, s)
    else do
      let (_, s) ← pipe cfg e st.2 x
      .ok (st.1, s)

/-- `dispatch::serializeArray(s, host_view.data(), num_elms)`. -/
def viewArray (cfg : Cfg) (e : Elem T) (num : Nat) (st : List T × Ser) : Out (List T × Ser) :=
  if num ≤ st.1.length then do
    let (ys, s) ← serializeArray cfg e st.2 (st.1.take num)
    .ok (ys ++ st.1.drop num, s)
  else .ub .badRegion

/-- The elements (container/view_serialize.h:394-409): the memory as one array if contiguous, otherwise one
element after the other. -/
def serViewElems (cfg : Cfg) (e : Elem T) (num : Nat) (contig : Bool) (v : View T) (st : List T × Ser) :
    Out (List T × Ser) :=
  if contig then viewArray cfg e num st else traverseManual (viewElement cfg e v) v.extents [] st

/-- The data of a view (container/view_serialize.h:381-415): `create_mirror_view` is the view itself if the host
can access it, otherwise a new view, which is filled only when packing. -/
def serViewData (cfg : Cfg) (ty : ViewTy) (e : Elem T) (num : Nat) (contig : Bool) (s : Ser) (v : View T) :
    Out (View T × Ser) := do
  let host := if ty.host || s.isPacking then v.data else List.replicate v.data.length e.zero
  let (host, s) ← serViewElems cfg e num contig v (host, s)
  .ok (if ty.host || s.isUnpacking then { v with data := host } else v, s)

/-- The part of `serialize_impl(s, Kokkos::View<T>&)` after the view has its extents
(container/view_serialize.h:366-416). -/
def serViewBody (cfg : Cfg) (ty : ViewTy) (e : Elem T) (s : Ser) (v : View T) : Out (View T × Ser) := do
  let (num, s) ← pipeSize cfg s v.size
  let (contig, s) ← pipeBool cfg s v.contig
  let (init, s) ← pipeBool cfg s (if s.isUnpacking then false else v.alloc)
  if init then serViewData cfg ty e num contig s v else .ok (v, s)

/-- `serialize_impl(s, Kokkos::View<T>&)` (container/view_serialize.h:326-417), with `serializeViewLabel`
(139-148).  `rank` as `int`, read and not used. -/
def serView (cfg : Cfg) (k : ViewTI) (ty : ViewTy) (e : Elem T) (s : Ser) (v : View T) : Out (View T × Ser) := do
  let (label, s) ← pipe cfg (strElem cfg k.str) s ⟨cfg.grow v.label.length, v.label⟩
  let (_, s) ← pipe cfg (intElem cfg) s (if s.isUnpacking then 0 else ty.rank)
  let (lay, s) ← pipe cfg (layoutElem cfg k.layout ty.layout) s (if s.isUnpacking then .default else v.layoutVal)
  serViewBody cfg ty e s (if s.isUnpacking then ty.construct e.zero label.chars lay else v)

/-- `dst(idx...) = src(idx...)`; `data` is the memory of `dst`. -/
def View.copyElem (dst src : View T) (idx : List Nat) (data : List T) : Out (List T) :=
  match src.get? idx with
  | some x => .ok (data.set (dst.offset idx) x)
  | none => .ub .badRegion

/-- `Kokkos::deep_copy(dst, src)` between views of equal extents. -/
def View.deepCopy (dst src : View T) : Out (View T) := do
  let data ← traverseManual (dst.copyElem src) dst.extents [] dst.data
  .ok { dst with data := data }

/-- Filled only when packing (container/view_serialize.h:424-426). -/
def View.fillFrom (tmp : View T) (s : Ser) (v : View T) : Out (View T) :=
  if s.isPacking then tmp.deepCopy v else .ok tmp

/-- `serialize_const(s, Kokkos::View<T const>&)` (container/view_serialize.h:419-432): through a new view of
elements that are not `const`, which is filled only when packing. -/
def serConstView (cfg : Cfg) (k : ViewTI) (ty : ViewTy) (e : Elem T) (s : Ser) (v : View T) : Out (View T × Ser) := do
  let tmp := ty.construct e.zero v.label v.layoutVal
  let tmp ← tmp.fillFrom s v
  let (tmp, s) ← serView cfg k ty e s tmp
  .ok (if s.isUnpacking then tmp else v, s)

/-- A view type for the generic code (`SerializeConst`, container/view_serialize.h:434-475). -/
def viewElem (cfg : Cfg) (k : ViewTI) (ty : ViewTy) (const : Bool) (e : Elem T) : Elem (View T) :=
  { ti := k.view, apply := dispatchEach (if const then serConstView cfg k ty e else serView cfg k ty e),
    fresh := ty.empty, dflt := some ty.empty, copyable := true }

/-! ## Comparison -/

/-- `view.extent(r)`: 1 beyond the rank. -/
def View.extent (v : View T) (r : Nat) : Nat := v.extents.getD r 1

/-- `ViewEqualityStatic` (container/view_equality.h:117-181): the overload chosen for a data type with `k`
dynamic dimensions followed by the static extents `st`.  `T` in the patterns `T*[N][M]`, `T[N][M]`,
`T**[N]`, `T*[N]`, `T[N]` can be a pointer or an array itself; the most specialized pattern is taken. -/
def compareStaticDim (ty : ViewTy) (v : View T) : Bool :=
  match ty.dims.filterMap id, (ty.dims.filter (·.isNone)).length with
  | [], _ => true
  | [n], 0 => v.extent 0 == n
  | [n], 1 => v.extent 1 == n
  | [n], _ + 2 => v.extent 2 == n
  | [n, m], 0 => v.extent 0 == n && v.extent 1 == m
  | [n, m], _ + 1 => v.extent 1 == n && v.extent 2 == m
  | n :: m :: _ :: _, _ => v.extent 0 == n && v.extent 1 == m

/-- `compareExtents` (container/view_equality.h:280-291). -/
def compareExtents (v1 v2 : View T) : Bool := v1.extents == v2.extents

/-- `compareMeta` (container/view_equality.h:294-304). -/
def compareMeta (v1 v2 : View T) : Bool :=
  v1.label == v2.label && v1.size == v2.size && v1.contig == v2.contig && v1.span == v2.span

/-- The callable of `compareData` (container/view_equality.h:321-327) at one index. -/
def compareAt (eq : T → T → Bool) (v1 v2 : View T) (idx : List Nat) (_ : Unit) : Out (Bool × Unit) :=
  match v1.get? idx, v2.get? idx with
  | some x, some y => .ok (eq x y, ())
  | _, _ => .ub .badRegion

/-- `compareData` (container/view_equality.h:306-341): `TraverseRecursive` with the comparison of two elements as
call, `neq == 0`.  An element outside of the memory of its view is undefined behaviour. -/
def compareData (eq : T → T → Bool) (v1 v2 : View T) : Out Bool := do
  let (neq, _) ← traverseRecur (compareAt eq v1 v2) v1.extents [] ()
  .ok (neq == 0)

/-- `ViewEquality<ViewT>::compare(v1, v2)` (container/view_equality.h:244-267). -/
def viewCompare (eq : T → T → Bool) (ty : ViewTy) (v1 v2 : View T) : Out Bool :=
  if compareStaticDim ty v1 && compareStaticDim ty v2 && compareExtents v1 v2 && compareMeta v1 v2 then
    compareData eq v1 v2
  else .ok false

end Ckpt
