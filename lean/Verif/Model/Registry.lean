/-!
# Type index registry

src/checkpoint/dispatch/type_registry.h.
-/

set_option autoImplicit false

namespace Ckpt

/-- `dead_mask` (type_registry.h:96). -/
def deadMask : Nat := 0xFF0000FF
/-- `dead_mark` (type_registry.h:97). -/
def deadMark : Nat := 0xDE0000AD

/-- `validateIndex` (type_registry.h:99-101). -/
def validateIndex (index : Nat) : Bool := deadMark == (index &&& deadMask)

/-- State of the registry: the static `uint16_t index` of `getIndex` (type_registry.h:88-93) and the
map `registered_names` (type_registry.h:83-86) as an association list, newest first. -/
structure TypeReg where
  next : Nat := 0
  names : List (Nat × Nat) := []

/-- `getIndex` (type_registry.h:90-93): returns the counter and increments it; `uint16_t` wraps. -/
def TypeReg.getIndex (r : TypeReg) : Nat × TypeReg :=
  (r.next, { r with next := (r.next + 1) % 2 ^ 16 })

/-- The encoding `(getIndex() << 8) | dead_mark` (type_registry.h:106). -/
def encodeIndex (i : Nat) : Nat := (i <<< 8) ||| deadMark

/-- Constructor of `Registrar<ObjT>` (type_registry.h:103-111): the index given to the type called
`name`; `registered_names[index] = name` overwrites an existing entry. -/
def TypeReg.register (r : TypeReg) (name : Nat) : Nat × TypeReg :=
  let (i, r) := r.getIndex
  let index := encodeIndex i
  (index, { r with names := (index, name) :: r.names.filter (·.1 != index) })

/-- Registering a sequence of types (static initialisation of `Type<ObjT>::idx`,
type_registry.h:118-119); returns their indices in order. -/
def TypeReg.registerAll (r : TypeReg) : List Nat → List Nat × TypeReg
  | [] => ([], r)
  | n :: ns =>
    let (i, r) := r.register n
    let (is, r) := r.registerAll ns
    (i :: is, r)

/-- `getTypeNameForIdx` (type_registry.h:126-128): `operator[]` yields the empty name
(here `none`) for an index that was never registered. -/
def TypeReg.nameFor (r : TypeReg) (index : Nat) : Option Nat :=
  (r.names.find? (·.1 == index)).map (·.2)

end Ckpt
