import Verif.Model.Compose
/-!
# `std::stack` and `std::priority_queue`

These can be counted by the footprinter only.
-/

set_option autoImplicit false

namespace Ckpt

variable {T : Type}

/-- `serializeQueueLikeContainer(s, q)` for the footprinter (container/queue_serialize.h:107-117): `countBytes` and
`contiguousBytes` without data.  With another serializer the program does not compile, as the overload for these takes a
`std::queue` (75-89); here this is an outcome no theorem has as a result. -/
def serQueueLike (qSizeof : Nat) (e : Elem T) (s : Ser) (xs : List T) : Out (List T × Ser) :=
  if s.isFootprinting then do
    let s := s.addBytes qSizeof
    let (_, s) ← s.contiguousBytes e.ti.sizeof xs.length []
    .ok (xs, s)
  else .ub .typeConfusion

/-- `std::stack<T>` or `std::priority_queue<T>` (container/queue_serialize.h:96-104), with the elements it holds. -/
def CppType.queueLike (ti : TI) (copyable : Bool) (t : CppType T) : CppType (List T) :=
  { ti := ti, apply := fun n => dispatchEach (serQueueLike ti.sizeof (t.elem n)), fresh := [], dflt := some [],
    copyable := copyable }

end Ckpt
