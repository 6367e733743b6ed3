import Verif.Model.Universe
/-!
# Shared pointers

`std::shared_ptr` is not serialized by the library itself (only its footprint is computed, see `Verif.Model.Pointers`).
The documentation of `reconstructPointedToObjectIfNeeded` says how to do it
(src/checkpoint/dispatch/vrt/virtual_serialize.h:191-216), and tests/unit/test_virtual_serialize.cc:341-367 does it for
vectors of shared pointers.  Objects and owners are numbered.
-/

set_option autoImplicit false

namespace Ckpt

variable {T : Type}

/-- Objects made with `new` (`none`: destroyed) and the control blocks of shared pointers: the object a block destroys
and its number of owners. -/
structure SHeap (T : Type) where
  objs : List (Option T)
  blocks : List (Nat × Nat)

/-- A `std::shared_ptr`: null, or a control block and the object `get()` points to. -/
abbrev SPtr := Option (Nat × Nat)

namespace SHeap

/-- What `get()` points to.  Simplified: if it has been destroyed, this is undefined at once. -/
def target (h : SHeap T) : SPtr → Out (Option T)
  | none => .ok none
  | some (_, o) =>
    match h.objs[o]? with
    | some (some x) => .ok (some x)
    | _ => .ub .deadObject

/-- `new T(x)`. -/
def make (h : SHeap T) (x : T) : SHeap T := { h with objs := h.objs ++ [some x] }

/-- `std::shared_ptr<T>(raw)`: a new control block. -/
def adopt (h : SHeap T) (o : Nat) : SHeap T := { h with blocks := h.blocks ++ [(o, 1)] }

/-- A shared pointer is destroyed or assigned to: one owner less, the last one destroys the object. -/
def release (h : SHeap T) : SPtr → Out (SHeap T)
  | none => .ok h
  | some (b, _) =>
    match h.blocks[b]? with
    | some (o, n + 1) =>
      let h := { h with blocks := h.blocks.set b (o, n) }
      if n = 0 then
        match h.objs[o]? with
        | some (some _) => .ok { h with objs := h.objs.set o none }
        | _ => .ub .deadObject
      else .ok h
    | _ => .ub .deadObject

/-- `*a = y` for the object `o`. -/
def store (h : SHeap T) (o : Nat) (y : T) : SHeap T := { h with objs := h.objs.set o (some y) }

/-- `a = std::shared_ptr<T>(raw)`, where `raw` is `a.get()`, or if that was null the object `t` just made.  A shared
pointer made from a null pointer is taken for a null one. -/
def reset (h : SHeap T) (a : SPtr) (t : Option T) : Out (SHeap T × SPtr) :=
  match a, t with
  | some (_, o), _ => do
    let h' ← (h.adopt o).release a
    .ok (h', some (h.blocks.length, o))
  | none, some x => .ok ((h.make x).adopt h.objs.length, some (h.blocks.length, h.objs.length))
  | none, none => .ok (h, none)

end SHeap

/-- `s | *a`. -/
def pipeTarget (cfg : Cfg) (e : Elem T) (s : Ser) (h : SHeap T) (a : SPtr) : Out ((SHeap T × SPtr) × Ser) := do
  match a, ← h.target a with
  | some (b, o), some x =>
    let (y, s) ← pipe cfg e s x
    .ok ((h.store o y, some (b, o)), s)
  | _, _ => .ub .nullDeref

/-- `a = std::shared_ptr<T>(raw)` when reading. -/
def resetIfReading (s : Ser) (h : SHeap T) (a : SPtr) (t : Option T) : Out (SHeap T × SPtr) :=
  if s.isUnpacking then h.reset a t else .ok (h, a)

/-- The code given in dispatch/vrt/virtual_serialize.h:202-210. -/
def serShared (cfg : Cfg) (e : Elem T) (virt : Option (Virt T)) (s : Ser) (h : SHeap T) (a : SPtr) :
    Out ((SHeap T × SPtr) × Ser) := do
  let raw ← h.target a
  let (t, s) ← reconstructPointedTo cfg e virt s raw
  let (h, a) ← resetIfReading s h a t
  pipeTarget cfg e s h a

/-- One after the other. -/
def serSharedEach (cfg : Cfg) (e : Elem T) (virt : Option (Virt T)) :
    Ser → SHeap T → List SPtr → Out ((SHeap T × List SPtr) × Ser)
  | s, h, [] => .ok ((h, []), s)
  | s, h, a :: as => do
    let ((h, a), s) ← serShared cfg e virt s h a
    let ((h, as), s) ← serSharedEach cfg e virt s h as
    .ok ((h, a :: as), s)

/-- Shared pointers are destroyed one after the other. -/
def SHeap.releaseAll (h : SHeap T) : List SPtr → Out (SHeap T)
  | [] => .ok h
  | a :: as => do
    let h ← h.release a
    h.releaseAll as

/-- `vec.resize(n)` for a vector of shared pointers. -/
def SHeap.resize (h : SHeap T) (as : List SPtr) (n : Nat) : Out (SHeap T × List SPtr) := do
  let h ← h.releaseAll (as.drop n)
  .ok (h, as.take n ++ List.replicate (n - as.length) none)

/-- The `serialize` function of `TestWrapper` (tests/unit/test_virtual_serialize.cc:341-367) for one of its vectors. -/
def serSharedVec (cfg : Cfg) (e : Elem T) (virt : Option (Virt T)) (s : Ser) (x : SHeap T × List SPtr) :
    Out ((SHeap T × List SPtr) × Ser) := do
  let (n, s) ← pipeSize cfg s x.2.length
  let x ← x.1.resize x.2 n
  serSharedEach cfg e virt s x.1 x.2

/-- A class with such a member, together with the memory of the program. -/
def sharedElem (cfg : Cfg) (ti : TI) (e : Elem T) (virt : Option (Virt T)) : Elem (SHeap T × List SPtr) :=
  { ti := ti, apply := dispatchEach (serSharedVec cfg e virt), fresh := (⟨[], []⟩, []), dflt := some (⟨[], []⟩, []),
    copyable := false }

end Ckpt
