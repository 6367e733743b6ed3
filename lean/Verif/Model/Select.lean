import Verif.Model.Dispatch
import Verif.Model.Reconstruct
/-!
# Which functions serialize a type

src/checkpoint/dispatch/dispatch_serializer_byte.h, dispatch_serializer_nonbyte.h and
traits/serializable_traits.h.  As in `Model/Reconstruct`, overload sets whose members are enabled by `enable_if`
are lists of (enabled, meaning); `none` is a call that does not compile.
-/

set_option autoImplicit false

namespace Ckpt

variable {T : Type}

/-- A function visiting one object. -/
abbrev Visit (T : Type) := Ser → T → Out (T × Ser)

/-- What is declared for a type.  A function is `none` for a serializer class if the expressions that detect it
(traits/serializable_traits.h:101-127) are not valid with this class. -/
structure Offers (T : Type) where
  /-- `std::is_arithmetic` -/
  arith : Bool := false
  /-- `typename T::isByteCopyable` if there is such a member: whether it is `std::true_type` -/
  byteTag : Option Bool := none
  /-- `ByteCopyNonIntrusive<T>` is specialized -/
  byteSpec : Bool := false
  /-- `std::is_enum` -/
  enum : Bool := false
  /-- `VirtualSerializeTraits<T>::has_virtual_serialize` (dispatch/vrt/virtual_serialize_traits.h:94-98) -/
  virt : Bool := false
  /-- `t.serialize(s)` -/
  member : Kind → Option (Visit T) := fun _ => none
  /-- `serialize(s, t)` -/
  free : Kind → Option (Visit T) := fun _ => none
  /-- `t.serializeParent(s)` -/
  parent : Kind → Option (Visit T) := fun _ => none
  /-- `t.serializeThis(s)` -/
  this : Kind → Option (Visit T) := fun _ => none
  /-- `s.contiguousBytes(val, sizeof(T), num)` -/
  bytes : Handler T
  /-- `serializeEnum(s, *val)` (container/enum_serialize.h:53-68) -/
  asInt : Visit T
  /-- `dispatch::vrt::virtualSerialize(val, s)` -/
  virtually : Handler T

namespace Offers
variable (o : Offers T) (k : Kind)

/-- `is_bytecopyable` (traits/serializable_traits.h:151-162); `has_byteCopyTraitTrue` 78-88. -/
def bytecopyable : Bool := o.byteTag.getD false || o.arith || o.byteSpec

/-- `is_traversable` (traits/serializable_traits.h:232-233). -/
def traversable : Bool := (o.member k).isSome || (o.free k).isSome || o.bytecopyable

/-- `has_split_serialize` (traits/serializable_traits.h:143-145). -/
def split : Bool := (o.parent k).isSome && (o.this k).isSome

/-- One function after the other. -/
def andThen (f g : Visit T) : Visit T := fun s x => do
  let (x, s) ← f s x
  g s x

/-- `serializeParent`, then `serializeThis`. -/
def both : Option (Visit T) := do
  let f ← o.parent k
  let g ← o.this k
  some (andThen f g)

/-- `applyElm` (dispatch_serializer_nonbyte.h:120-139). -/
def applyElm : Option (Visit T) :=
  resolve [(o.split k, o.both k), (!o.split k && !o.enum, some fun s x => .ok (x, s)), (o.enum, some o.asInt)]

/-- The loop calling `serialize` and `applyElm` (dispatch_serializer_nonbyte.h:174-186). -/
def intrusive : Option (Handler T) := do
  let f ← o.member k
  let g ← o.applyElm k
  some (dispatchEach (andThen f g))

/-- `applyStatic` (dispatch_serializer_nonbyte.h:152-215). -/
def applyStatic : Option (Handler T) :=
  resolve [(k == .footprinter && !o.traversable k && !o.enum, some o.bytes),
    ((o.member k).isSome, o.intrusive k),
    ((o.free k).isSome, (o.free k).map dispatchEach),
    (o.enum, (o.applyElm k).map dispatchEach)]

/-- Virtual or not, by the flag of the serializer (dispatch_serializer_nonbyte.h:217-228). -/
def applyVirtual : Option (Handler T) := do
  let f ← o.applyStatic k
  some fun s xs => if s.vdis then f (s.setVdis false) xs else o.virtually s xs

/-- `apply` (dispatch_serializer_nonbyte.h:217-234). -/
def apply : Option (Handler T) :=
  resolve [(o.virt, o.applyVirtual k), (!o.virt, o.applyStatic k)]

/-- `SerializerDispatchByte::operator()` (dispatch_serializer_byte.h:56-78). -/
def dispatch : Option (Handler T) :=
  resolve [(o.bytecopyable, some o.bytes), (!o.bytecopyable, o.apply k)]

end Offers

/-- A class derived from another: names not declared in it are found in the base class, and a free function for the
base class accepts it (`on` makes a function for objects of the derived class of one for the base class).
Simplified: one base class; what the derived class declares accepts each serializer the base class's does. -/
def Offers.derive {B : Type} (on : Visit B → Visit T) (d : Offers T) (b : Offers B) : Offers T :=
  { d with
    byteTag := d.byteTag.or b.byteTag
    member := fun k => (d.member k).or ((b.member k).map on)
    free := fun k => (d.free k).or ((b.free k).map on)
    parent := fun k => (d.parent k).or ((b.parent k).map on)
    this := fun k => (d.this k).or ((b.this k).map on) }

end Ckpt
