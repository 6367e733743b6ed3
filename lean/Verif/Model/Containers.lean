import Verif.Model.Dispatch
/-!
# Container serializers

One function per `serialize` overload in src/checkpoint/container.  Each takes the serializer and
the current value of the object and returns the value of the object after the call.

Simplification common to all: allocation failures (`bad_alloc`, `length_error`) are not modelled;
temporaries that are move-constructed from and never destroyed (they are only freed, see
dispatch/allocator.h:53-59) have no effect on values.
-/

set_option autoImplicit false

namespace Ckpt

variable {T : Type}

/-! ## std::vector -/

/-- `std::vector<T>`: capacity and elements. -/
structure Vec (T : Type) where
  cap : Nat
  elems : List T

/-- `vec.reserve(n)`. -/
def Vec.reserve (cfg : Cfg) (v : Vec T) (n : Nat) : Vec T :=
  if n ≤ v.cap then v else { v with cap := cfg.grow n }

/-- `vec.resize(n, x)`: keeps the first `n` elements, appends copies of `x` if there are fewer;
reallocates when the capacity is exceeded. -/
def Vec.resize (cfg : Cfg) (v : Vec T) (n : Nat) (x : T) : Vec T :=
  let w := v.reserve cfg n
  { w with elems := v.elems.take n ++ List.replicate (n - v.elems.length) x }

/-- `serializeVectorMeta` (container/vector_serialize.h:57-69). -/
def serializeVectorMeta (cfg : Cfg) (s : Ser) (v : Vec T) : Out (Nat × Vec T × Ser) := do
  let (cap, s) ← pipeSize cfg s v.cap
  let v := v.reserve cfg cap
  let (n, s) ← pipeSize cfg s v.elems.length
  .ok (n, v, s)

/-- `constructVectorData`, the three overloads (container/vector_serialize.h:71-107): default
constructible elements (71-77); not default but copy constructible (79-91); neither (93-107, the
only one that does not resize: it appends `n` freshly constructed elements). -/
def constructVectorData (cfg : Cfg) (e : Elem T) (n : Nat) (v : Vec T) : Vec T :=
  match e.dflt with
  | some d => v.resize cfg n d
  | none =>
    if e.copyable then v.resize cfg n e.fresh
    else
      let elems := v.elems ++ List.replicate n e.fresh
      { (v.reserve cfg elems.length) with elems := elems }

/-- `serialize(s, std::vector<T>&)` (container/vector_serialize.h:109-121) and, for the footprinter,
(147-155). -/
def serVector (cfg : Cfg) (vecSizeof : Nat) (e : Elem T) (s : Ser) (v : Vec T) :
    Out (Vec T × Ser) :=
  if s.isFootprinting then do
    let s := s.addBytes vecSizeof
    let (es, s) ← serializeArray cfg e s v.elems
    let s := s.addBytes (e.ti.sizeof * (v.cap - v.elems.length))
    .ok ({ v with elems := es }, s)
  else do
    let (n, v, s) ← serializeVectorMeta cfg s v
    let v := if s.isUnpacking then constructVectorData cfg e n v else v
    let (es, s) ← serializeArray cfg e s v.elems
    .ok ({ v with elems := es }, s)

/-- Loop of `serialize(s, std::vector<bool>&)` when not unpacking
(container/vector_serialize.h:134-137): `elt` is a copy, the vector is not changed. -/
def packBools (cfg : Cfg) (s : Ser) : List Bool → Out Ser
  | [] => .ok s
  | b :: bs => do
    let (_, s) ← pipe cfg (boolElem cfg) s b.toNat
    packBools cfg s bs

/-- Loop of `serialize(s, std::vector<bool>&)` when unpacking
(container/vector_serialize.h:138-143). -/
def unpackBools (cfg : Cfg) (s : Ser) : List Bool → Out (List Bool × Ser)
  | [] => .ok ([], s)
  | _ :: bs => do
    let (b, s) ← pipeBool cfg s false
    let (bs, s) ← unpackBools cfg s bs
    .ok (b :: bs, s)

/-- `serialize(s, std::vector<bool>&)` (container/vector_serialize.h:123-145, footprint 157-164). -/
def serVectorBool (cfg : Cfg) (vecSizeof : Nat) (s : Ser) (v : Vec Bool) : Out (Vec Bool × Ser) :=
  if s.isFootprinting then .ok (v, s.addBytes vecSizeof)
  else do
    let (n, v, s) ← serializeVectorMeta cfg s v
    if s.isUnpacking then
      let v := v.resize cfg n false
      let (bs, s) ← unpackBools cfg s v.elems
      .ok ({ v with elems := bs }, s)
    else
      let s ← packBools cfg s v.elems
      .ok (v, s)

/-! ## std::string -/

/-- `std::string`: capacity and characters. -/
structure Str where
  cap : Nat
  chars : Bytes

/-- `str.resize(n)`.  (The capacity of an actual string is at least its length.) -/
def Str.resize (cfg : Cfg) (x : Str) (n : Nat) : Str :=
  { cap := if n ≤ x.cap ∨ n ≤ x.chars.length then x.cap else cfg.grow n,
    chars := x.chars.take n ++ List.replicate (n - x.chars.length) 0 }

/-- `dispatch::serializeArray(s, str.c_str(), len)`: an array of `char`. -/
def serializeChars (cfg : Cfg) (s : Ser) (cs : Bytes) : Out (Bytes × Ser) := do
  let (ys, s) ← serializeArray cfg (charElem cfg) s (cs.map fun c => [c])
  .ok (ys.flatten, s)

/-- `serialize(s, std::string&)` (container/string_serialize.h:53-79).  When footprinting
`str.capacity()` bytes starting at `c_str()` are presented; only their number matters (modelled by
padding with zeros). -/
def serString (cfg : Cfg) (strSizeof : Nat) (s : Ser) (x : Str) : Out (Str × Ser) :=
  if s.isFootprinting then do
    let s := s.addBytes strSizeof
    let (_, s) ← serializeChars cfg s
      (x.chars.take x.cap ++ List.replicate (x.cap - x.chars.length) 0)
    .ok (x, s)
  else do
    let (n, s) ← pipeSize cfg s x.chars.length
    let x := x.resize cfg n
    let (cs, s) ← serializeChars cfg s x.chars
    .ok ({ x with chars := cs }, s)

/-! ## std::list, std::deque, and container helpers -/

/-- `serializeContainerSize` (container/container_serialize.h:52-62). -/
def serializeContainerSize (cfg : Cfg) (contSizeof : Nat) (s : Ser) (n : Nat) : Out (Nat × Ser) :=
  if s.isFootprinting then .ok (n, s.addBytes contSizeof) else pipeSize cfg s n

/-- Build `n` elements, each freshly constructed and then unpacked
(container/map_serialize.h:72-77, list_serialize.h:91-95, queue_serialize.h:62-66), handing each to
`add`. -/
def unpackLoop (cfg : Cfg) (e : Elem T) (add : List T → T → List T) :
    Nat → Ser → List T → Out (List T × Ser)
  | 0, s, acc => .ok (acc, s)
  | n + 1, s, acc => do
    let (y, s) ← pipe cfg e s e.fresh
    unpackLoop cfg e add n s (add acc y)

/-- `cont.resize(n, x)` for list and deque. -/
def seqResize (xs : List T) (n : Nat) (x : T) : List T :=
  xs.take n ++ List.replicate (n - xs.length) x

/-- `deserializeOrderedElems` for copy constructible (container/list_serialize.h:57-76) and other
elements (78-97). -/
def deserializeOrderedElems (cfg : Cfg) (e : Elem T) (s : Ser) (xs : List T) (n : Nat) :
    Out (List T × Ser) :=
  if e.copyable then pipeEach cfg e s (seqResize xs n e.fresh)
  else unpackLoop cfg e (fun acc y => acc ++ [y]) n s xs

/-- `serializeOrderedContainer` (container/list_serialize.h:107-118), used by `std::list` and
`std::deque` (120-128). -/
def serList (cfg : Cfg) (contSizeof : Nat) (e : Elem T) (s : Ser) (xs : List T) :
    Out (List T × Ser) := do
  let (n, s) ← serializeContainerSize cfg contSizeof s xs.length
  if s.isUnpacking then deserializeOrderedElems cfg e s xs n
  else pipeEach cfg e s xs

/-! ## Associative containers -/

/-- `cont.emplace(x)` of `std::set`/`std::map` (unique keys, comparator `lt`) on the elements in
iteration order: inserted before the first element that is greater, unless an equivalent one is
present. -/
def emplaceUnique (lt : T → T → Bool) : List T → T → List T
  | [], x => [x]
  | y :: ys, x =>
    if lt y x then y :: emplaceUnique lt ys x
    else if lt x y then x :: y :: ys
    else y :: ys

/-- `cont.emplace(x)` of `std::multiset`/`std::multimap`: inserted after the last element that is
not greater. -/
def emplaceMulti (lt : T → T → Bool) : List T → T → List T
  | [], x => [x]
  | y :: ys, x => if lt x y then x :: y :: ys else y :: emplaceMulti lt ys x

/-- `cont.emplace(x)` of the unordered containers: nothing happens if keys are unique and an equal
key is present; otherwise the element is added.  `arrange` is the iteration order afterwards
(any permutation the implementation chooses). -/
def emplaceUnordered (multi : Bool) (eq : T → T → Bool) (arrange : List T → List T)
    (xs : List T) (x : T) : List T :=
  if !multi && xs.any (fun y => eq y x) then xs else arrange (x :: xs)

/-- `serializeMapLikeContainer` (container/map_serialize.h:86-97) with `deserializeEmplaceElems`
(57-78); all eight overloads (99-137) differ only in the container's `emplace`. -/
def serMapLike (cfg : Cfg) (contSizeof : Nat) (emplace : List T → T → List T) (e : Elem T)
    (s : Ser) (xs : List T) : Out (List T × Ser) := do
  let (n, s) ← serializeContainerSize cfg contSizeof s xs.length
  if s.isUnpacking then unpackLoop cfg e emplace n s xs
  else pipeEach cfg e s xs

/-! ## std::queue -/

/-- `serializeQueueElems` (container/queue_serialize.h:67-73): works on a copy of the queue. -/
def serializeQueueElems (cfg : Cfg) (e : Elem T) (s : Ser) : List T → Out Ser
  | [] => .ok s
  | x :: xs => do
    let (_, s) ← pipe cfg e s x
    serializeQueueElems cfg e s xs

/-- `serialize(s, std::queue<T>&)` (container/queue_serialize.h:54-65, 75-95; footprint 107-117). -/
def serQueue (cfg : Cfg) (qSizeof : Nat) (e : Elem T) (s : Ser) (xs : List T) :
    Out (List T × Ser) :=
  if s.isFootprinting then do
    let s := s.addBytes qSizeof
    let (_, s) ← s.contiguousBytes e.ti.sizeof xs.length []
    .ok (xs, s)
  else do
    let (n, s) ← serializeContainerSize cfg qSizeof s xs.length
    if s.isUnpacking then unpackLoop cfg e (fun acc y => acc ++ [y]) n s xs
    else
      let s ← serializeQueueElems cfg e s xs
      .ok (xs, s)

/-! ## std::array, pairs, tuples, members of a class -/

/-- `serialize(s, std::array<T, N>&)` (container/array_serialize.h:54-57). -/
def serArray (cfg : Cfg) (e : Elem T) (s : Ser) (xs : List T) : Out (List T × Ser) :=
  serializeArray cfg e s xs

/-- `s | m1; s | m2; ...`: the members `xs` with types `es`, in order. -/
def serMembers (cfg : Cfg) : List (Elem T) → Ser → List T → Out (List T × Ser)
  | [], s, [] => .ok ([], s)
  | e :: es, s, x :: xs => do
    let (y, s) ← pipe cfg e s x
    let (ys, s) ← serMembers cfg es s xs
    .ok (y :: ys, s)
  | _, _, _ => .ub .badRegion

/-- `serialize(s, std::pair<T, U>&)` (container/tuple_serialize.h:75-80). -/
def serPair {A B : Type} (cfg : Cfg) (pairSizeof : Nat) (e1 : Elem A) (e2 : Elem B) (s : Ser) (x : A × B) :
    Out ((A × B) × Ser) := do
  let s := s.addBytes pairSizeof
  let (a, s) ← pipe cfg e1 s x.1
  let (b, s) ← pipe cfg e2 s x.2
  .ok ((a, b), s)

/-- Visit the members with the indices in `order`, in that order. -/
def visitMembers (cfg : Cfg) (es : List (Elem T)) : List Nat → Ser → List T → Out (List T × Ser)
  | [], s, xs => .ok (xs, s)
  | i :: is, s, xs =>
    match es[i]?, xs[i]? with
    | some e, some x => do
      let (y, s) ← pipe cfg e s x
      visitMembers cfg es is s (xs.set i y)
    | _, _ => .ub .badRegion

/-- `tuple_helper` (container/tuple_serialize.h:56-61): `std::forward_as_tuple(((s | get<I>),0)...)`;
the arguments of a function call are evaluated in an unspecified order, `cfg.argOrder`. -/
def serTuple (cfg : Cfg) (es : List (Elem T)) (s : Ser) (xs : List T) : Out (List T × Ser) :=
  visitMembers cfg es (cfg.argOrder es.length) s xs

/-! ## std::optional -/

/-- `serialize(s, std::optional<T>&)` and `deserializeOptional` (container/optional_serialize.h:53-91).
When footprinting only `sizeof(*optional)` is added, the value is not traversed. -/
def serOptional (cfg : Cfg) (optSizeof : Nat) (e : Elem T) (s : Ser) (x : Option T) :
    Out (Option T × Ser) :=
  if s.isFootprinting then
    let s := s.addBytes optSizeof
    match x with
    | some _ => .ok (x, s.addBytes e.ti.sizeof)
    | none => .ok (x, s)
  else if s.isUnpacking then do
    let (hasValue, s) ← pipeBool cfg s false
    if hasValue then
      let (y, s) ← pipe cfg e s e.fresh
      .ok (some y, s)
    else .ok (none, s)
  else do
    let (_, s) ← pipe cfg (boolElem cfg) s x.isSome.toNat
    match x with
    | some v =>
      let (y, s) ← pipe cfg e s v
      .ok (some y, s)
    | none => .ok (none, s)

/-! ## std::variant -/

/-- `std::variant<..>`: the alternative held (index and value), or valueless by exception. -/
inductive Variant (T : Type)
  | holds (i : Nat) (v : T)
  | valueless

/-- `v.index()`; `variant_npos` is `size_t(-1)`. -/
def Variant.index : Variant T → Nat
  | .holds i _ => i
  | .valueless => sizeMod - 1

/-- `SerializeEntry<Args...>::serialize(s, v, entry, cur)` (container/variant_serialize.h:58-92): walk
the alternatives until `entry == cur`; past the last alternative nothing happens.  `std::get<Arg>(v)` (75) and the
assignment of an `Arg` (73) are by type and do not compile for a type that is an alternative twice; with different
alternatives they mean the alternative `cur`. -/
def serializeEntry (cfg : Cfg) : List (Elem T) → Ser → Variant T → Nat → Nat → Out (Variant T × Ser)
  | [], s, v, _, _ => .ok (v, s)
  | e :: es, s, v, entry, cur =>
    if entry = cur then
      if s.isUnpacking then do
        let (y, s) ← pipe cfg e s e.fresh
        .ok (.holds cur y, s)
      else
        match v with
        | .holds i x =>
          if i = cur then do
            let (y, s) ← pipe cfg e s x
            .ok (.holds i y, s)
          else .throw .badVariantAccess
        | .valueless => .throw .badVariantAccess
    else serializeEntry cfg es s v entry (cur + 1)

/-- `serialize(s, std::variant<Args...>&)` (container/variant_serialize.h:117-121). -/
def serVariant (cfg : Cfg) (es : List (Elem T)) (s : Ser) (v : Variant T) :
    Out (Variant T × Ser) := do
  let (entry, s) ← pipeSize cfg s v.index
  serializeEntry cfg es s v entry 0

/-! ## Enumerations and durations -/

/-- `serializeEnum` (container/enum_serialize.h:54-63) and `serialize(s, std::chrono::duration&)`
(container/chrono_serialize.h:53-58): the underlying value is copied to a local variable,
serialized, and copied back. -/
def serUnderlying (cfg : Cfg) (under : Elem T) (s : Ser) (x : T) : Out (T × Ser) := do
  let (u, s) ← pipe cfg under s x
  .ok (u, s)

/-! ## std::unique_ptr -/

/-- How the pointee type of a pointer takes part in virtual serialization
(dispatch/vrt/virtual_serialize_traits.h:55-103): its dynamic type index
(`_checkpointDynamicTypeIndex`) and how an object is created from an index
(`allocateConcreteType` + `constructConcreteType`, dispatch/vrt/object_registry.h:131-140); `none` is
a null result (`constructAllowFail` without assertions, dispatch/reconstructor.h:155-168). -/
structure Virt (T : Type) where
  dynIdx : T → Nat
  construct : Nat → Out (Option T)

/-- `SerializeVirtualTypeIfNeeded::apply` (dispatch/vrt/virtual_serialize.h:82-129) and the
reconstruction (140-188) as combined by `reconstructPointedToObjectIfNeeded` (217-230).
`no_type_idx = -1` (dispatch/vrt/registry_common.h:54) is the bit pattern `2^32 - 1`. -/
def reconstructPointedTo (cfg : Cfg) (e : Elem T) (virt : Option (Virt T)) (s : Ser)
    (target : Option T) : Out (Option T × Ser) :=
  match virt with
  | none =>
    match target with
    | some t => .ok (some t, s)
    | none => if s.isUnpacking then .ok (some e.fresh, s) else .ok (none, s)
  | some vi => do
    let entry : Nat ←
      if s.isUnpacking then .ok (2 ^ 32 - 1)
      else match target with
        | some t => .ok (vi.dynIdx t)
        | none => .ub .nullDeref
    let (entry, s) ← if s.isFootprinting then .ok (entry, s) else pipe cfg (intElem cfg) s entry
    match target with
    | some t =>
      Out.assertThat cfg.ndebug (entry == vi.dynIdx t)
      .ok (some t, s)
    | none =>
      if s.isUnpacking then
        let t ← vi.construct entry
        .ok (t, s)
      else .ok (none, s)

/-- `serialize(s, std::unique_ptr<T>&)` (container/unique_ptr_serialize.h:53-80). -/
def serUniquePtr (cfg : Cfg) (ptrSizeof : Nat) (e : Elem T) (virt : Option (Virt T)) (s : Ser)
    (p : Option T) : Out (Option T × Ser) := do
  let (isNull, s) ←
    if s.isFootprinting then .ok (p.isNone, s.addBytes ptrSizeof)
    else pipeBool cfg s p.isNone
  if isNull then
    .ok (if s.isUnpacking then none else p, s)
  else
    let (t, s) ← reconstructPointedTo cfg e virt s p
    match t with
    | none => .ub .nullDeref
    | some t =>
      let (t, s) ← pipe cfg e s t
      .ok (some t, s)

end Ckpt
