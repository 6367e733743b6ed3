/-!
# How objects are constructed before they are unpacked

src/checkpoint/dispatch/reconstructor.h, traits/serializable_traits.h, traits/reconstructor_traits.h.
Overload sets whose members are enabled by `enable_if` are modelled as lists of (enabled, meaning): a
call compiles if exactly one member is enabled.
-/

set_option autoImplicit false

namespace Ckpt

/-- What the traits find out about a class (traits/serializable_traits.h:161-225; `defaultCons` is
`std::is_default_constructible`, `copyCons` is `std::is_copy_constructible`,
reconstructor_traits.h:53-99). -/
structure ConsTraits where
  tagged : Bool
  intrusive : Bool
  specialized : Bool
  nonintrusive : Bool
  defaultCons : Bool
  copyCons : Bool
  deriving DecidableEq, Repr

/-- `is_reconstructible` (traits/serializable_traits.h:213-218). -/
def ConsTraits.reconstructible (c : ConsTraits) : Bool := c.nonintrusive || c.intrusive || c.specialized

/-- `is_constructible` (traits/serializable_traits.h:220-223). -/
def ConsTraits.constructible (c : ConsTraits) : Bool := c.defaultCons || c.reconstructible || c.tagged

/-- How an object comes into being. -/
inductive Made
  /-- `new (buf) T{SERIALIZE_CONSTRUCT_TAG{}}` -/
  | byTag
  /-- `T::reconstruct(buf)` -/
  | byIntrusive
  /-- `CheckpointReconstructor<T>::reconstruct(t, buf)` -/
  | bySpecialized
  /-- `reconstruct(t, buf)` -/
  | byNonintrusive
  /-- `new (buf) T{}` -/
  | byDefault
  /-- copy of an object made that way. -/
  | copyOf (m : Made)
  /-- a null pointer instead of an object. -/
  | null
  /-- a failed library assertion. -/
  | assertion
  deriving DecidableEq, Repr

/-- Overload resolution among function templates with equal parameters: `none` if the call does not
compile (no candidate, or ambiguous). -/
def resolve {α : Type} (cands : List (Bool × Option α)) : Option α :=
  match cands.filter (·.1) with
  | [c] => c.2
  | _ => none

/-- `constructDefault` (reconstructor.h:61-78); the second overload is a `static_assert` of the
traits (all of them false when it is reached from `construct`). -/
def constructDefault (c : ConsTraits) : Option Made :=
  resolve [(c.defaultCons, some .byDefault),
    (!c.defaultCons, if c.tagged || c.reconstructible || c.defaultCons then some .null else none)]

/-- `constructReconstruct` (reconstructor.h:91-128). -/
def constructReconstruct (c : ConsTraits) : Option Made :=
  resolve [(c.intrusive, some .byIntrusive), (c.specialized, some .bySpecialized),
    (c.nonintrusive, some .byNonintrusive), (!c.reconstructible, constructDefault c)]

/-- `constructTag` (reconstructor.h:130-142) and `construct` (144-147). -/
def construct (c : ConsTraits) : Option Made :=
  resolve [(c.tagged, some .byTag), (!c.tagged, constructReconstruct c)]

/-- `constructAllowFail` (reconstructor.h:149-175). -/
def constructAllowFail (c : ConsTraits) : Option Made :=
  resolve [(c.constructible, construct c), (!c.constructible, some .assertion)]

/-- New elements of a `std::vector` (container/vector_serialize.h:71-107). -/
def vectorElement (c : ConsTraits) : Option Made :=
  resolve [(c.defaultCons, some .byDefault),
    (!c.defaultCons && c.copyCons, (construct c).map .copyOf),
    (!c.defaultCons && !c.copyCons, construct c)]

/-- New elements of `std::list` and `std::deque` (container/list_serialize.h:57-97). -/
def listElement (c : ConsTraits) : Option Made :=
  resolve [(c.copyCons, (construct c).map .copyOf), (!c.copyCons, construct c)]

/-- Where objects are constructed by the library. -/
inductive Site
  /-- `deserialize` and friends (dispatch.impl.h:190-193, 224-227). -/
  | result
  /-- container/list_serialize.h:57-97. -/
  | listElem
  /-- container/vector_serialize.h:71-107. -/
  | vectorElem
  /-- sets, maps (container/map_serialize.h:72-77), queues (queue_serialize.h:57-68), optional
  (optional_serialize.h:53-73), variant (variant_serialize.h:67-72). -/
  | temporary
  /-- object of a `unique_ptr` to a class without virtual serialization
  (dispatch/vrt/virtual_serialize.h:140-158). -/
  | pointee
  /-- object of a `unique_ptr` to a virtually serialized class, of the class found in the registry
  (dispatch/vrt/object_registry.h:99-116). -/
  | polymorphicPointee
  deriving DecidableEq, Repr

/-- What the library does there. -/
def Site.make (c : ConsTraits) : Site → Option Made
  | .result | .temporary | .pointee => construct c
  | .listElem => listElement c
  | .vectorElem => vectorElement c
  | .polymorphicPointee => constructAllowFail c

end Ckpt
