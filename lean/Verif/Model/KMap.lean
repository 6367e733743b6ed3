import Verif.Model.Containers
/-!
# `Kokkos::UnorderedMap`

src/checkpoint/container/kokkos_unordered_map_serialize.h on a model of the parts of Kokkos it uses.  Kokkos
itself is modelled after Kokkos_UnorderedMap.hpp (4.x); where an entry goes is left open.

Simplified: the map is accessible from the host.
-/

set_option autoImplicit false

namespace Ckpt

variable {K V : Type}

/-- `Kokkos::UnorderedMap<K, V>`: for each slot `key_at(i)` and, if the slot is in use, its value.  `key_at` of a
slot that is not in use is what was there before. -/
structure KMap (K V : Type) where
  slots : List (K × Option V)

/-- What is particular to a map type: `EqualTo`; the slot an insertion takes, if it succeeds (hashing and
probing); the capacity allocated for a requested one (`calculate_capacity`); the keys of a new allocation. -/
structure KHash (K V : Type) where
  eq : K → K → Bool
  place : List (K × Option V) → K → Option Nat
  capacity : Nat → Nat
  key0 : K

/-- Entries in use, by slot. -/
def occupied (slots : List (K × Option V)) : List (K × V) :=
  slots.filterMap fun p => p.2.map fun v => (p.1, v)

namespace KMap

/-- `size()`. -/
def size (m : KMap K V) : Nat := (occupied m.slots).length

/-- `capacity()`. -/
def capacity (m : KMap K V) : Nat := m.slots.length

/-- `value_at(find(k))` if `exists(k)`. -/
def find (h : KHash K V) (m : KMap K V) (k : K) : Option V :=
  (occupied m.slots).findSome? fun p => if h.eq p.1 k then some p.2 else none

/-- `insert(k, v)`: an existing entry is kept.  Returns whether the insertion failed in its result, which the
library ignores. -/
def insert (h : KHash K V) (m : KMap K V) (k : K) (v : V) : KMap K V :=
  match m.find h k with
  | some _ => m
  | none =>
    match h.place m.slots k with
    | some i => ⟨m.slots.set i (k, some v)⟩
    | none => m

/-- A map just constructed. -/
def make (h : KHash K V) (cap : Nat) : KMap K V := ⟨List.replicate (h.capacity cap) (h.key0, none)⟩

/-- `rehash(cap)`. -/
def rehash (h : KHash K V) (m : KMap K V) (cap : Nat) : KMap K V :=
  (occupied m.slots).foldl (fun m p => m.insert h p.1 p.2) (make h (max cap m.size))

end KMap

/-- Type information of the map class and of its `size_type`. -/
structure KMapTI where
  map : TI
  u32 : TI

/-- `uint32_t` as an element type. -/
def u32Elem (cfg : Cfg) (ti : TI) : Elem Nat :=
  { ti := ti, apply := dispatchInt cfg 4, fresh := 0, dflt := some 0, copyable := true }

/-- The pairs written (kokkos_unordered_map_serialize.h:70-77): for each slot the key in it and the value found for
this key, if there is one. -/
def kmapPairs (h : KHash K V) (m : KMap K V) : List (K × V) :=
  m.slots.filterMap fun p => (m.find h p.1).map fun v => (p.1, v)

/-- `serializeKokkosUnorderedMapElems` (kokkos_unordered_map_serialize.h:63-78), works on copies. -/
def packPairs (cfg : Cfg) (eK : Elem K) (eV : Elem V) (s : Ser) : List (K × V) → Out Ser
  | [] => .ok s
  | (k, v) :: rest => do
    let (_, s) ← pipe cfg eK s k
    let (_, s) ← pipe cfg eV s v
    packPairs cfg eK eV s rest

/-- The loop of `deserializeInsertElems` (kokkos_unordered_map_serialize.h:104-112). -/
def insertPairs (cfg : Cfg) (h : KHash K V) (eK : Elem K) (eV : Elem V) : Nat → Ser → KMap K V → Out (KMap K V × Ser)
  | 0, s, m => .ok (m, s)
  | n + 1, s, m => do
    let (k, s) ← pipe cfg eK s eK.fresh
    let (v, s) ← pipe cfg eV s eV.fresh
    insertPairs cfg h eK eV n s (m.insert h k v)

/-- `serialize(s, Kokkos::UnorderedMap&)` (kokkos_unordered_map_serialize.h:115-137, footprint 139-155), with
`serializeContainerSize` and `serializeContainerCapacity` (container/container_serialize.h:52-72). -/
def serKMap (cfg : Cfg) (k : KMapTI) (h : KHash K V) (eK : Elem K) (eV : Elem V) (s : Ser) (m : KMap K V) :
    Out (KMap K V × Ser) :=
  if s.isFootprinting then
    .ok (m, (s.addBytes k.map.sizeof).addBytes ((m.capacity * eK.ti.sizeof + m.size * eV.ti.sizeof) % sizeMod))
  else do
    let (size, s) ← pipe cfg (u32Elem cfg k.u32) s m.size
    let (cap, s) ← pipe cfg (u32Elem cfg k.u32) s m.capacity
    if s.isUnpacking then insertPairs cfg h eK eV size s (m.rehash h cap)
    else do
      let s ← packPairs cfg eK eV s (kmapPairs h m)
      .ok (m, s)

/-- The map for the generic code; `UnorderedMap{}` has `calculate_capacity(0)` slots. -/
def kmapElem (cfg : Cfg) (k : KMapTI) (h : KHash K V) (eK : Elem K) (eV : Elem V) : Elem (KMap K V) :=
  { ti := k.map, apply := dispatchEach (serKMap cfg k h eK eV), fresh := .make h 0, dflt := some (.make h 0),
    copyable := true }

end Ckpt
