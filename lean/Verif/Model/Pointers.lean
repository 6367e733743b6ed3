import Verif.Model.Api
import Verif.Model.Universe
/-!
# Pointers in the memory footprint

src/checkpoint/container/raw_ptr_serialize.h, shared_ptr_serialize.h, atomic_serialize.h,
function_serialize.h, thread_serialize.h.  These `serialize` functions exist for the `Footprinter`
only (`std::enable_if_t<checkpoint::is_footprinter_v<SerializerT>>`); with any other serializer such
a member does not compile.  They follow pointers to objects that other objects also point to, so the
objects live in a memory.
-/

set_option autoImplicit false

namespace Ckpt

/-- A member of an object in memory, as its `serialize` function visits it. -/
inductive Member
  /-- a value of a type of the universe. -/
  | value (t : Ty) (x : Val)
  /-- `std::atomic`, `std::function`, `std::thread`, `void*`, `FILE*` and the MPI handles. -/
  | handle (ti : TI)
  /-- `T*` or `std::shared_ptr<T>`: type information of the pointer and the address it holds. -/
  | pointer (ti : TI) (a : Option Nat)
  /-- `std::vector<T*>` or `std::vector<std::shared_ptr<T>>`. -/
  | pointers (tiv ti : TI) (cap : Nat) (as : List (Option Nat))

/-- An object: type information of its class, visited members. -/
structure HObj where
  ti : TI
  members : List Member

/-- The memory: the object at each address, if there is one. -/
abbrev Heap := Nat → Option HObj

/-- `serialize(s, const std::atomic<T>&)` (container/atomic_serialize.h:53-62), the functions for
`std::function` (function_serialize.h:61-76) and `std::thread` (thread_serialize.h:53-61), and
`serializeRawPtr(s, void*)` (raw_ptr_serialize.h:82-90) and the pointers to incomplete classes
(92-116): `s.countBytes(x)`. -/
def serHandle (ti : TI) (s : Ser) (x : Unit) : Out (Unit × Ser) := .ok (x, s.addBytes ti.sizeof)

/-- `serializeRawPtr(s, ptr)` (container/raw_ptr_serialize.h:60-80) and
`serialize(s, std::shared_ptr<T>&)` (shared_ptr_serialize.h:51-68): `countBytes`, then `s | *ptr`
unless null. `obj` is `s | *ptr`. -/
def serPointer (ti : TI) (obj : Ser → Nat → Out (Nat × Ser)) (s : Ser) (p : Option Nat) :
    Out (Option Nat × Ser) :=
  let s := s.addBytes ti.sizeof
  match p with
  | none => .ok (none, s)
  | some a => do
    let (_, s) ← obj s a
    .ok (some a, s)

/-- A pointer type as an element type. -/
def pointerElem (ti : TI) (obj : Ser → Nat → Out (Nat × Ser)) : Elem (Option Nat) :=
  { ti := ti, apply := dispatchEach (serPointer ti obj), fresh := none, dflt := some none,
    copyable := true }

/-- `std::atomic` and the like as an element type. -/
def handleElem (ti : TI) : Elem Unit :=
  { ti := ti, apply := dispatchEach (serHandle ti), fresh := (), dflt := some (), copyable := false }

/-- A vector of pointers as an element type. -/
def pointerVecElem (cfg : Cfg) (tiv ti : TI) (obj : Ser → Nat → Out (Nat × Ser)) : Elem (Vec (Option Nat)) :=
  { ti := tiv, apply := dispatchEach (serVector cfg tiv.sizeof (pointerElem ti obj)),
    fresh := ⟨0, []⟩, dflt := some ⟨0, []⟩, copyable := true }

/-- `s | member`. -/
def serMember (cfg : Cfg) (env : Env) (n : Nat) (obj : Ser → Nat → Out (Nat × Ser)) (s : Ser) :
    Member → Out Ser
  | .value t x => do
    let (_, s) ← pipe cfg (elem cfg env n t) s x
    .ok s
  | .handle ti => do
    let (_, s) ← pipe cfg (handleElem ti) s ()
    .ok s
  | .pointer ti a => do
    let (_, s) ← pipe cfg (pointerElem ti obj) s a
    .ok s
  | .pointers tiv ti cap as => do
    let (_, s) ← pipe cfg (pointerVecElem cfg tiv ti obj) s ⟨cap, as⟩
    .ok s

/-- The members one after the other. -/
def serMemberList (cfg : Cfg) (env : Env) (n : Nat) (obj : Ser → Nat → Out (Nat × Ser)) (s : Ser) :
    List Member → Out Ser
  | [] => .ok s
  | m :: ms => do
    let s ← serMember cfg env n obj s m
    serMemberList cfg env n obj s ms

/-- The object at address `a` as an element type, given the `serialize` function of its class.
Simplified: the static type of a pointer is the class of the object it points to. -/
def objectAt (H : Heap) (f : Ser → Nat → Out (Nat × Ser)) (a : Nat) : Elem Nat :=
  { ti := ((H a).map HObj.ti).getD ⟨0, 0, 0⟩, apply := dispatchEach f, fresh := a, dflt := none,
    copyable := true }

/-- The `serialize` function of the class of the object at an address
(dispatch_serializer_nonbyte.h:174-201), visiting its members; `n` bounds the nesting.  A pointer to
no object may not be followed. -/
def serObject (cfg : Cfg) (env : Env) (H : Heap) : Nat → Ser → Nat → Out (Nat × Ser)
  | 0, _, _ => .fuel
  | n + 1, s, a =>
    match H a with
    | none => .ub .badRegion
    | some o => do
      let s ← serMemberList cfg env n
        (fun s b => pipe cfg (objectAt H (serObject cfg env H n) b) s b) s o.members
      .ok (a, s)

/-- The object at address `a` with nesting bound `n`. -/
def heapElem (cfg : Cfg) (env : Env) (H : Heap) (n a : Nat) : Elem Nat :=
  objectAt H (serObject cfg env H n) a

end Ckpt
