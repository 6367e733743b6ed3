import Verif.Model.ViewMore
/-!
# Views that share memory

A `Kokkos::View` object refers to an allocation; copies and subviews of a view refer to the same one.  Here the
allocations are numbered, and the serializers of `Verif.Model.View` are applied to what a view refers to.

Simplified: all allocations hold elements of one type; those no view refers to any more stay.
-/

set_option autoImplicit false

namespace Ckpt

variable {T : Type}

/-- The allocations: label and elements of each. -/
structure VMem (T : Type) where
  allocs : List (Bytes × List T)

/-- A view object: the allocation and where in it `data()` is (`none`: no memory), extents, strides and `span()`. -/
structure VRef where
  place : Option (Nat × Nat)
  extents : List Nat
  strides : List Nat
  span : Nat

namespace VMem

/-- The view a view object stands for. -/
def load (m : VMem T) (r : VRef) : View T :=
  match r.place with
  | none => { label := [], extents := r.extents, strides := r.strides, span := r.span, alloc := false, data := [] }
  | some (a, o) =>
    let (label, elems) := m.allocs[a]?.getD ([], [])
    { label := label, extents := r.extents, strides := r.strides, span := r.span, alloc := true,
      data := (elems.drop o).take r.span }

/-- The elements from `data()` on become `xs`. -/
def store (m : VMem T) (r : VRef) (xs : List T) : VMem T :=
  match r.place with
  | none => m
  | some (a, o) => ⟨m.allocs.modify a fun p => (p.1, p.2.take o ++ xs ++ p.2.drop (o + xs.length))⟩

/-- A new allocation, for this view. -/
def make (m : VMem T) (v : View T) : VMem T × VRef :=
  (⟨m.allocs ++ [(v.label, v.data)]⟩,
    { place := some (m.allocs.length, 0), extents := v.extents, strides := v.strides, span := v.span })

end VMem

/-- `s | view` (container/view_serialize.h:325-417): when reading, `view = ViewType(label, layout)` (line 361) makes the
view object refer to a new allocation (line 429 for views of `const` elements); otherwise the elements are visited where they are. -/
def serRef (cfg : Cfg) (e : Elem (View T)) (s : Ser) (m : VMem T) (r : VRef) : Out ((VMem T × VRef) × Ser) := do
  let (v, s) ← pipe cfg e s (m.load r)
  .ok (if s.isUnpacking then m.make v else (m.store r v.data, r), s)

/-- `s | view_1; s | view_2; ..`. -/
def serRefs (cfg : Cfg) : List (Elem (View T)) → Ser → VMem T → List VRef → Out ((VMem T × List VRef) × Ser)
  | e :: es, s, m, r :: rs => do
    let ((m, r), s) ← serRef cfg e s m r
    let ((m, rs), s) ← serRefs cfg es s m rs
    .ok ((m, r :: rs), s)
  | _, s, m, rs => .ok ((m, rs), s)

/-- `serializeContentsOnly(s, view)` (container/view_serialize.h:583-589): `values`, a second view object that refers to the
same allocation, is made to refer to a new one, from which the elements are copied. -/
def serRefContents (cfg : Cfg) (k : ViewTI) (ty : ViewTy) (e : Elem T) (s : Ser) (x : VMem T × VRef) :
    Out ((VMem T × VRef) × Ser) := do
  let (v, s) ← serContentsOnly cfg k ty e s (x.1.load x.2)
  .ok ((x.1.store x.2 v.data, x.2), s)

/-- A class whose members are these views, together with the memory of the program. -/
def refsElem (cfg : Cfg) (ti : TI) (es : List (Elem (View T))) : Elem (VMem T × List VRef) :=
  { ti := ti, apply := dispatchEach fun s x => serRefs cfg es s x.1 x.2, fresh := (⟨[]⟩, []), dflt := some (⟨[]⟩, []),
    copyable := true }

/-- A class whose member is a view of which it serializes the contents. -/
def refContentsElem (cfg : Cfg) (ti : TI) (k : ViewTI) (ty : ViewTy) (e : Elem T) : Elem (VMem T × VRef) :=
  { ti := ti, apply := dispatchEach (serRefContents cfg k ty e), fresh := (⟨[]⟩, ⟨none, [], [], 0⟩),
    dflt := some (⟨[]⟩, ⟨none, [], [], 0⟩), copyable := true }

end Ckpt
