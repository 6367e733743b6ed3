/-!
# Outcomes of library code

A C++ call can return, throw, fail a `checkpointAssert`, or have undefined behaviour.  Each is a
separate outcome of the model.  `fuel` marks an exhausted recursion bound of the model; theorems
state that it does not happen.
-/

set_option autoImplicit false

namespace Ckpt

/-- Why a `serialization_error` was raised. -/
inductive SerErrKind
  /-- "Unpacking wrong type" (src/checkpoint/dispatch/dispatch.impl.h:90-100). -/
  | wrongType (thisIdx serIdx : Nat)
  /-- "serialization used .. but deserialization used .." (dispatch.impl.h:124-130). -/
  | memUsed (name ser deser : Nat)
  /-- "Sizer reported .. but Packer used .." (dispatch.impl.h:239-247). -/
  | packedSize (sizer packer : Nat)
  deriving DecidableEq, Repr

/-- C++ exceptions raised by the modelled code.  Simplified: the message text of
`serialization_error` is kept as the structured reason plus the list of type names appended to it. -/
inductive Err
  /-- `serialization_error` (dispatch.impl.h:65-71): reason, `depth_`, and the type names appended
  to the message in the order they were appended ("#0 ..", "#1 ..", ...). -/
  | ser (k : SerErrKind) (depth : Nat) (trace : List Nat)
  /-- `std::runtime_error` of `StreamUnpacker` (serializers/stream_serializer.h:82-85). -/
  | streamShort
  /-- `std::out_of_range` of `vector::at` (dispatch/vrt/object_registry.h:121-140). -/
  | outOfRange
  /-- `std::bad_function_call`: calling the empty `std::function` returned by `getBaseIdx`
  (dispatch/vrt/serializer_registry.h:155-158). -/
  | badFunctionCall
  /-- `std::bad_variant_access` of `std::get` (container/variant_serialize.h:74). -/
  | badVariantAccess
  /-- `std::runtime_error` of `IOBuffer` (buffer/io_buffer.cc). -/
  | io
  /-- an exception thrown by user code (constructors, serialize functions). -/
  | user (code : Nat)
  deriving DecidableEq, Repr

/-- Kinds of undefined behaviour the modelled code can run into. -/
inductive UB
  /-- `memcpy` writes past the end of the destination buffer (serializers/packer.impl.h:122-128). -/
  | packOverflow
  /-- `memcpy` reads past the end of the source buffer (serializers/unpacker.impl.h:93-95). -/
  | readOverflow
  /-- a byte count that does not match the object it is read from / written to. -/
  | badRegion
  /-- a null pointer is dereferenced. -/
  | nullDeref
  /-- a `bool` object holding a byte other than 0 or 1 is read. -/
  | badBool
  /-- a type-erased pointer is cast to another type than it had
  (dispatch/vrt/serializer_registry.h:112-113). -/
  | typeConfusion
  /-- an object that does not exist any more is used or destroyed. -/
  | deadObject
  deriving DecidableEq, Repr

/-- Outcome of running a piece of library code. -/
inductive Out (α : Type)
  | ok (a : α)
  | throw (e : Err)
  /-- a failed `checkpointAssert` in a build with assertions (common.h:84-122). -/
  | abort
  | ub (u : UB)
  /-- the model's recursion bound is exhausted (no counterpart in the code). -/
  | fuel
  deriving Repr, DecidableEq

namespace Out

/-- Sequencing: the first abnormal outcome ends the computation. -/
def bind {α β : Type} : Out α → (α → Out β) → Out β
  | ok a, f => f a
  | throw e, _ => throw e
  | abort, _ => abort
  | ub u, _ => ub u
  | fuel, _ => fuel

instance : Monad Out where
  pure := Out.ok
  bind := Out.bind

/-- `checkpointAssert(cond, ..)` (common.h:110-122): with `NDEBUG` the failure is printed and
execution continues (`assert(false)` at common.h:102 is compiled out). -/
def assertThat (ndebug : Bool) (cond : Bool) : Out Unit :=
  if cond || ndebug then ok () else abort

end Out
end Ckpt
