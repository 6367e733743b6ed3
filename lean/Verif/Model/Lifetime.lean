import Verif.Model.Api
import Verif.Model.Containers
/-!
# Lifetimes of temporaries

The containers that unpack elements into temporaries do so in memory of a `dispatch::Allocator`
(src/checkpoint/dispatch/allocator.h:53-59), whose destructor frees the memory and never destroys the
object in it.  The functions here are those of `Verif.Model.Containers` while unpacking, with the events
of their own temporaries recorded (those of nested containers are not).  Constructors do not throw here.
-/

set_option autoImplicit false

namespace Ckpt

variable {T : Type} {α β : Type}

/-- Sequencing of recorded computations: later events only happen if the first part returns. -/
def Run.bind (r : Run α) (f : α → Run β) : Run β :=
  match r.out with
  | .ok a => { evs := r.evs ++ (f a).evs, out := (f a).out }
  | .throw e => { evs := r.evs, out := .throw e }
  | .abort => { evs := r.evs, out := .abort }
  | .ub u => { evs := r.evs, out := .ub u }
  | .fuel => { evs := r.evs, out := .fuel }

/-- `Reconstructor::construct(allocated.buf)`. -/
def Run.construct : Run Unit := { evs := [.construct], out := .ok () }

/-- Library code that is not looked into. -/
def Run.quiet (o : Out α) : Run α := { evs := [], out := o }

/-- The scope of a `dispatch::Allocator` (allocator.h:53-59): its destructor runs when the scope is left
normally or by an exception. -/
def withAllocator (r : Run α) : Run α :=
  { evs := .allocate :: r.evs ++ (match r.out with | .ok _ | .throw _ => [.deallocate] | _ => []), out := r.out }

/-- The loop of `unpackLoop`. -/
def unpackLoopRun (cfg : Cfg) (e : Elem T) (add : List T → T → List T) :
    Nat → Ser → List T → Run (List T × Ser)
  | 0, s, acc => .quiet (.ok (acc, s))
  | n + 1, s, acc =>
    Run.construct.bind fun _ => (Run.quiet (pipe cfg e s e.fresh)).bind fun r =>
      unpackLoopRun cfg e add n r.2 (add acc r.1)

/-- `deserializeEmplaceElems` (container/map_serialize.h:57-78), `deserializeQueueElems`
(queue_serialize.h:57-68) and `deserializeOrderedElems` for elements that cannot be copied
(list_serialize.h:78-97). -/
def emplaceElemsRun (cfg : Cfg) (e : Elem T) (add : List T → T → List T) (n : Nat) (s : Ser) (xs : List T) :
    Run (List T × Ser) :=
  withAllocator (unpackLoopRun cfg e add n s xs)

/-- `deserializeOrderedElems` for elements that can be copied (container/list_serialize.h:57-76). -/
def orderedElemsRun (cfg : Cfg) (e : Elem T) (s : Ser) (xs : List T) (n : Nat) : Run (List T × Ser) :=
  withAllocator (Run.construct.bind fun _ => .quiet (pipeEach cfg e s (seqResize xs n e.fresh)))

/-- `deserializeOptional` (container/optional_serialize.h:53-73).  Two allocators. -/
def deserializeOptionalRun (cfg : Cfg) (e : Elem T) (s : Ser) : Run (Option T × Ser) :=
  withAllocator (withAllocator (Run.construct.bind fun _ => (Run.quiet (pipeBool cfg s false)).bind fun b =>
    if b.1 then Run.construct.bind fun _ => (Run.quiet (pipe cfg e b.2 e.fresh)).bind fun r =>
      .quiet (.ok (some r.1, r.2))
    else .quiet (.ok (none, b.2))))

/-- The selected alternative of `SerializeEntry::serialize` (container/variant_serialize.h:66-72). -/
def alternativeRun (cfg : Cfg) (e : Elem T) (cur : Nat) (s : Ser) : Run (Variant T × Ser) :=
  withAllocator (Run.construct.bind fun _ => (Run.quiet (pipe cfg e s e.fresh)).bind fun r =>
    .quiet (.ok (.holds cur r.1, r.2)))

/-- `constructVectorData` for elements without default constructor (container/vector_serialize.h:79-107). -/
def constructVectorDataRun (cfg : Cfg) (e : Elem T) (n : Nat) (v : Vec T) : Run (Vec T) :=
  match e.dflt with
  | some _ => .quiet (.ok (constructVectorData cfg e n v))
  | none =>
    if e.copyable then withAllocator (Run.construct.bind fun _ => .quiet (.ok (constructVectorData cfg e n v)))
    else withAllocator { evs := List.replicate n .construct, out := .ok (constructVectorData cfg e n v) }

end Ckpt
