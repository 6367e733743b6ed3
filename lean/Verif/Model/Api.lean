import Verif.Model.Dispatch
/-!
# Entry points

src/checkpoint/checkpoint_api.impl.h and the `Standard` functions of dispatch.impl.h for memory and
streams.  Files are in `Verif.Model.File`.

Objects are passed by reference to the code; here every function returns the object it was given as
it is afterwards.
-/

set_option autoImplicit false

namespace Ckpt

variable {T : Type}

namespace Ser

/-- `Sizer::getSize` (serializers/sizer.h), `Footprinter::getMemoryFootprint`
(serializers/footprinter.h:55-57), `usedBufferSize` (packer.impl.h:135-138, unpacker.impl.h:101-104). -/
def count (s : Ser) : Nat :=
  match s.core with
  | .sizer n => n
  | .footprinter n => n
  | .packer _ _ used => used
  | .unpacker _ _ used => used
  | .streamPacker _ _ n => n
  | .streamUnpacker _ n => n
  | .traverser seen => seen.length

/-- The memory behind the buffer of a `PackerBuffer`, or what a stream has received. -/
def written (s : Ser) : Bytes :=
  match s.core with
  | .packer mem _ _ => mem
  | .streamPacker out _ _ => out
  | .traverser seen => seen
  | _ => []

/-- Input not yet read. -/
def unread (s : Ser) : Bytes :=
  match s.core with
  | .unpacker mem cur _ => mem.drop cur
  | .streamUnpacker inp _ => inp
  | _ => []

end Ser

/-! ## Sizes -/

/-- `checkpoint::getSize` (checkpoint_api.impl.h:88-91) by `Standard::size`
(dispatch.impl.h:194-199). -/
def getSize (cfg : Cfg) (e : Elem T) (x : T) : Out (Nat × T) := do
  let (x, s) ← traverseTop cfg e { core := .sizer 0, kind := .sizer } x
  .ok (s.count, x)

/-- `checkpoint::getMemoryFootprint` (checkpoint_api.impl.h:93-99) by `Standard::footprint`
(dispatch.impl.h:201-206). -/
def getMemoryFootprint (cfg : Cfg) (e : Elem T) (x : T) (sizeOffset : Nat) : Out (Nat × T) := do
  let (x, s) ← traverseTop cfg e { core := .footprinter 0, kind := .footprinter } x
  .ok ((sizeOffset + max s.count e.ti.sizeof) % sizeMod, x)

/-! ## Memory -/

/-- What `checkpoint::serialize` returns: the memory `getBuffer()` points to, `getSize()`, and
whether it is a `ManagedBuffer` (buffer/managed_buffer.h:54-73) or a `UserBuffer`
(buffer/user_buffer.h:52-69).  `calls` records the arguments of the calls of the buffer-obtaining
function. -/
structure Packed where
  mem : Bytes
  size : Nat
  managed : Bool
  calls : List Nat
  deriving DecidableEq, Repr

/-- `Standard::pack<T, PackerBuffer<..>>` (dispatch.impl.h:208-211) into the memory `mem`: the memory
afterwards and `usedBufferSize()`. -/
def packMem (cfg : Cfg) (e : Elem T) (kind : Kind) (mem : Bytes) (x : T) : Out (Bytes × Nat × T) := do
  let (x, s) ← traverseTop cfg e { core := .packer mem 0 0, kind := kind } x
  .ok (s.written, s.count, x)

/-- `validatePackerBufferSize` (dispatch.impl.h:236-248). -/
def validatePackerBufferSize (used bufferSize : Nat) : Out Unit :=
  if used ≠ bufferSize then .throw (.ser (.packedSize bufferSize used) 0 []) else .ok ()

/-- `packBuffer` (dispatch.impl.h:250-266).  `fn size` is the memory the user's function returns, if it
does not return null; a `ManagedBuffer` is zero-initialised (`make_unique<char[]>`). -/
def packBuffer (cfg : Cfg) (e : Elem T) (fn : Option (Nat → Option Bytes)) (size : Nat) (x : T) :
    Out (Packed × T) :=
  let userBuf : Option Bytes := match fn with | some f => f size | none => none
  let calls : List Nat := match fn with | some _ => [size] | none => []
  match userBuf with
  | none => do
    let (mem, used, x) ← packMem cfg e .packer (List.replicate size 0) x
    validatePackerBufferSize used size
    .ok ({ mem := mem, size := size, managed := true, calls := calls }, x)
  | some ub => do
    let (mem, used, x) ← packMem cfg e .packerUserBuf ub x
    validatePackerBufferSize used size
    .ok ({ mem := mem, size := size, managed := false, calls := calls }, x)

/-- `checkpoint::serialize` (checkpoint_api.impl.h:56-64) by `serializeType`
(dispatch.impl.h:268-273). -/
def serialize (cfg : Cfg) (e : Elem T) (fn : Option (Nat → Option Bytes)) (x : T) :
    Out (Packed × T) := do
  let (len, x) ← getSize cfg e x
  packBuffer cfg e fn len x

/-- `Standard::unpack<T, UnpackerBuffer<UserBuffer>>` (dispatch.impl.h:218-222) over the object `y`
from the memory `mem`, as `deserializeInPlace` does (checkpoint_api.impl.h:83-86,
dispatch.impl.h:285-288).  The second result is the number of bytes read. -/
def deserializeInPlace (cfg : Cfg) (e : Elem T) (mem : Bytes) (y : T) : Out (T × Nat) := do
  let (y, s) ← traverseTop cfg e { core := .unpacker mem 0 0, kind := .unpacker } y
  .ok (y, s.count)

/-! ## Streams -/

/-- An output stream: what its medium has received and how much it can hold. -/
structure OStream where
  data : Bytes
  limit : Option Nat := none
  deriving DecidableEq, Repr

/-- `serializeToStream` (checkpoint_api.impl.h:126-132); the computed length is not used. -/
def serializeToStream (cfg : Cfg) (e : Elem T) (x : T) (o : OStream) : Out (T × OStream) := do
  let (_, x) ← getSize cfg e x
  let (x, s) ← traverseTop cfg e { core := .streamPacker o.data o.limit 0, kind := .streamPacker } x
  .ok (x, { o with data := s.written })

/-- `deserializeInPlaceFromStream` (checkpoint_api.impl.h:144-149): the object and the input left in
the stream. -/
def deserializeInPlaceFromStream (cfg : Cfg) (e : Elem T) (inp : Bytes) (y : T) : Out (T × Bytes) := do
  let (y, s) ← traverseTop cfg e { core := .streamUnpacker inp 0, kind := .streamUnpacker } y
  .ok (y, s.unread)

/-- A user-defined traverser (`Traverse::with`, dispatch.impl.h:169-188) in mode `None`: what it is
shown. -/
def traverseCustom (cfg : Cfg) (e : Elem T) (x : T) : Out (Bytes × T) := do
  let (x, s) ← traverseTop cfg e { core := .traverser [], kind := .custom } x
  .ok (s.written, x)

/-! ## Ownership of the object created for the result -/

/-- What happens to the memory of the result object. -/
inductive Ev
  | allocate
  | construct
  | destroy
  | deallocate
  /-- `operator delete` applied to memory provided by the caller. -/
  | deleteCallers
  deriving DecidableEq, Repr

/-- Events so far and the outcome. -/
structure Run (α : Type) where
  evs : List Ev
  out : Out α

/-- `deserializeType(data, allocBuf)` (dispatch.impl.h:275-283).  `mk` is the outcome of
`Reconstructor<T>::construct` (it can run user code that throws).  The `unique_ptr` around the object
destroys and deletes it when unpacking throws, whoever provided the memory. -/
def deserializeType (cfg : Cfg) (e : Elem T) (mk : Out T) (callersBuf : Bool) (data : Bytes) :
    Run (T × Nat) :=
  let evs : List Ev := if callersBuf then [] else [.allocate]
  match mk with
  | .ok y =>
    let evs := evs ++ [.construct]
    match deserializeInPlace cfg e data y with
    | .throw err =>
      { evs := evs ++ [.destroy, if callersBuf then .deleteCallers else .deallocate],
        out := .throw err }
    | o => { evs := evs, out := o }
  | .throw err => { evs := evs, out := .throw err }
  | .abort => { evs := evs, out := .abort }
  | .ub u => { evs := evs, out := .ub u }
  | .fuel => { evs := evs, out := .fuel }

/-- The shape of `deserializeFromFile` (checkpoint_api.impl.h:109-117) and `deserializeFromStream`
(134-142): allocate, construct, unpack; the raw pointer becomes owned only afterwards.
`unpack y` is the unpacking of the constructed object. -/
def deserializeUnguarded {R : Type} (mk : Out T) (unpack : T → Out R) : Run R :=
  match mk with
  | .ok y => { evs := [.allocate, .construct], out := unpack y }
  | .throw err => { evs := [.allocate], out := .throw err }
  | .abort => { evs := [.allocate], out := .abort }
  | .ub u => { evs := [.allocate], out := .ub u }
  | .fuel => { evs := [.allocate], out := .fuel }

/-- `deserialize(buf)` (checkpoint_api.impl.h:71-81), value only; the object is constructed by
`Reconstructor<T>::construct`. -/
def deserialize (cfg : Cfg) (e : Elem T) (mem : Bytes) : Out (T × Nat) :=
  (deserializeType cfg e (.ok e.fresh) false mem).out

/-- `deserializeFromStream` (checkpoint_api.impl.h:134-142), value only. -/
def deserializeFromStream (cfg : Cfg) (e : Elem T) (inp : Bytes) : Out (T × Bytes) :=
  (deserializeUnguarded (.ok e.fresh) (deserializeInPlaceFromStream cfg e inp)).out

end Ckpt
