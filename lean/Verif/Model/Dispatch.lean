import Verif.Model.Serializer
import Verif.Model.Registry
/-!
# Traversal and dispatch

src/checkpoint/dispatch/dispatch.impl.h, dispatch_serializer_byte.h, dispatch_serializer_nonbyte.h.
-/

set_option autoImplicit false

namespace Ckpt

/-- What the library knows statically about a type `T`: its name
(`typeregistry::getTypeName<T>()`, type_registry.h:130-132), its registered index
(`typeregistry::getTypeIdx<T>()`, type_registry.h:121-124) and `sizeof(T)`.
References and `const` are removed before (`CleanType`, dispatch/clean_type.h:51-82). -/
structure TI where
  name : Nat
  idx : Nat
  sizeof : Nat
  deriving DecidableEq, Repr

/-- Build configuration and platform choices the library code depends on. -/
structure Cfg where
  /-- `SERIALIZATION_ERROR_CHECKING` is defined. -/
  check : Bool
  /-- `NDEBUG` is defined. -/
  ndebug : Bool
  endian : Endian
  /-- capacity obtained by `vector::reserve(n)` when it has to reallocate. -/
  grow : Nat → Nat
  /-- order in which the compiler evaluates the `n` arguments of `std::forward_as_tuple`. -/
  argOrder : Nat → List Nat
  /-- type information of `size_t`, `bool`, `char` and `int` (= `vrt::TypeIdx`). -/
  tiSize : TI
  tiBool : TI
  tiChar : TI
  tiInt : TI

/-- Serializing the `num = xs.length` consecutive objects `xs` of type `T`:
`SerializerDispatch<SerializerT, T, ..>::operator()(s, T* val, num)`
(dispatch_serializer_byte.h:66-78).  The returned list is the array after the call. -/
abbrev Handler (T : Type) := Ser → List T → Out (List T × Ser)

/-- Type `T` as seen by the generic code: type information, dispatch, the value
`Reconstructor<T>::construct` creates (dispatch/reconstructor.h:59-145), the value-initialised `T`
if `T` is default constructible, and whether it is copy constructible. -/
structure Elem (T : Type) where
  ti : TI
  apply : Handler T
  fresh : T
  dflt : Option T
  copyable : Bool

/-- `SerializerDispatchByte` for byte-copyable types (dispatch_serializer_byte.h:66-71) via
`contiguousTyped` (base_serializer.h:162-165); objects are given by their representation. -/
def dispatchByte (size : Nat) : Handler Bytes := fun s xs => do
  let (bs, s) ← s.contiguousBytes size xs.length xs.flatten
  .ok (chunks size xs.length bs, s)

/-- Byte dispatch for an unsigned integer type of `n` bytes (`is_arithmetic`,
traits/serializable_traits.h:153-159). -/
def dispatchInt (cfg : Cfg) (n : Nat) : Handler Nat := fun s xs => do
  let (ys, s) ← dispatchByte n s (xs.map (intBytes cfg.endian n))
  .ok (ys.map (intVal cfg.endian), s)

/-- One integer through `SerializerDispatch` directly, without `Traverse::with`: used by
`withTypeIdx` and `withMemUsed` (dispatch.impl.h:79-88, 110-121). -/
def rawInt (cfg : Cfg) (n : Nat) (s : Ser) (v : Nat) : Out (Nat × Ser) := do
  let (ys, s) ← dispatchInt cfg n s [v]
  match ys with
  | [y] => .ok (y, s)
  | _ => .ub .badRegion

/-- `withTypeIdx<T>(t)` (dispatch.impl.h:73-105). -/
def withTypeIdx (cfg : Cfg) (ti : TI) (s : Ser) : Out Ser :=
  if s.isPacking || s.isSizing then do
    let (_, s) ← rawInt cfg 4 s ti.idx
    .ok s
  else if s.isUnpacking then do
    let (serTypeIdx, s) ← rawInt cfg 4 s 0
    if validateIndex serTypeIdx == false || ti.idx != serTypeIdx then
      .throw (.ser (.wrongType ti.idx serTypeIdx) 0 [ti.name])
    else .ok s
  else .ok s

/-- `withMemUsed<T>(t, len)` (dispatch.impl.h:107-134). -/
def withMemUsed (cfg : Cfg) (ti : TI) (s : Ser) (len : Nat) : Out Ser :=
  let memUsed := ti.sizeof * len % sizeMod
  if s.isPacking || s.isSizing then do
    let (_, s) ← rawInt cfg 8 s memUsed
    .ok s
  else if s.isUnpacking then do
    let (serMemUsed, s) ← rawInt cfg 8 s 0
    if memUsed != serMemUsed then
      .throw (.ser (.memUsed ti.name serMemUsed memUsed) 0 [])
    else .ok s
  else .ok s

/-- The `catch (serialization_error const& err)` block of `Traverse::with`
(dispatch.impl.h:151-156): depth is incremented and the type name appended.  Other exceptions
pass unchanged. -/
def catchDepth {α : Type} (ti : TI) : Out α → Out α
  | .throw (.ser k depth trace) => .throw (.ser k (depth + 1) (trace ++ [ti.name]))
  | o => o

/-- `Traverse::with(target, t, len)` (dispatch.impl.h:136-167); `len = xs.length`. -/
def traverse {T : Type} (cfg : Cfg) (ti : TI) (h : Handler T) (s : Ser) (xs : List T) :
    Out (List T × Ser) :=
  if cfg.check then do
    let s ← withTypeIdx cfg ti s
    let (ys, s) ← catchDepth ti (h s xs)
    let s ← withMemUsed cfg ti s xs.length
    .ok (ys, s)
  else h s xs

/-- `s | x` (dispatch.impl.h:56-59), `Traverse::with` with `len = 1`. -/
def pipe {T : Type} (cfg : Cfg) (e : Elem T) (s : Ser) (x : T) : Out (T × Ser) := do
  let (ys, s) ← traverse cfg e.ti e.apply s [x]
  match ys with
  | [y] => .ok (y, s)
  | _ => .ub .badRegion

/-- `s | x` for each element of a container in turn (the objects stay where they are). -/
def pipeEach {T : Type} (cfg : Cfg) (e : Elem T) (s : Ser) : List T → Out (List T × Ser)
  | [] => .ok ([], s)
  | x :: xs => do
    let (y, s) ← pipe cfg e s x
    let (ys, s) ← pipeEach cfg e s xs
    .ok (y :: ys, s)

/-- `dispatch::serializeArray(s, array, len)` (dispatch.impl.h:229-234): nothing happens for
`len = 0`. -/
def serializeArray {T : Type} (cfg : Cfg) (e : Elem T) (s : Ser) (xs : List T) :
    Out (List T × Ser) :=
  if xs.length > 0 then traverse cfg e.ti e.apply s xs else .ok (xs, s)

/-- `SerializerDispatchNonByte::applyStatic` with an (intrusive or non-intrusive) `serialize`
function `f` (dispatch_serializer_nonbyte.h:174-201): the elements one after the other. -/
def dispatchEach {T : Type} (f : Ser → T → Out (T × Ser)) : Handler T
  | s, [] => .ok ([], s)
  | s, x :: xs => do
    let (y, s) ← f s x
    let (ys, s) ← dispatchEach f s xs
    .ok (y :: ys, s)

/-- `Traverse::with<T, TraverserT>(target, args...)` (dispatch.impl.h:169-188), after the traverser
has been constructed: without error checking the header and trailer are written only here. -/
def traverseTop {T : Type} (cfg : Cfg) (e : Elem T) (s : Ser) (x : T) : Out (T × Ser) :=
  if cfg.check then pipe cfg e s x
  else do
    let s ← withTypeIdx cfg e.ti s
    let (y, s) ← pipe cfg e s x
    let s ← withMemUsed cfg e.ti s 1
    .ok (y, s)

/-- `size_t` as an element type. -/
def sizeElem (cfg : Cfg) : Elem Nat :=
  { ti := cfg.tiSize, apply := dispatchInt cfg 8, fresh := 0, dflt := some 0, copyable := true }

/-- `bool` as an element type; the object is its byte value. -/
def boolElem (cfg : Cfg) : Elem Nat :=
  { ti := cfg.tiBool, apply := dispatchInt cfg 1, fresh := 0, dflt := some 0, copyable := true }

/-- `int` (`vrt::TypeIdx`) as an element type; the object is its 32-bit pattern. -/
def intElem (cfg : Cfg) : Elem Nat :=
  { ti := cfg.tiInt, apply := dispatchInt cfg 4, fresh := 0, dflt := some 0, copyable := true }

/-- `char` as an element type. -/
def charElem (cfg : Cfg) : Elem Bytes :=
  { ti := cfg.tiChar, apply := dispatchByte 1, fresh := [0], dflt := some [0], copyable := true }

/-- `s | n` for a local variable `n` of type `size_t`. -/
def pipeSize (cfg : Cfg) (s : Ser) (n : Nat) : Out (Nat × Ser) := pipe cfg (sizeElem cfg) s n

/-- `s | b` for a local variable `b` of type `bool` whose value is used afterwards; reading a byte
other than 0 and 1 into it is undefined behaviour when it is used. -/
def pipeBool (cfg : Cfg) (s : Ser) (b : Bool) : Out (Bool × Ser) := do
  let (v, s) ← pipe cfg (boolElem cfg) s b.toNat
  if v = 0 then .ok (false, s) else if v = 1 then .ok (true, s) else .ub .badBool

end Ckpt
