import Verif.Model.ViewMore
import Verif.Model.Universe
import Verif.Model.KMap
/-!
# Containers, classes and Kokkos classes within each other

In `Verif.Model.Universe` containers hold types of that universe only, and a Kokkos view is no such type.  Here the same
container functions are given any element type, so that e.g. `std::map<int, Kokkos::View<double*>>`, a class with such
members, and a view of these classes are types as well.
-/

set_option autoImplicit false

namespace Ckpt

variable {T A B : Type}

/-- A C++ type: what `Elem` has.  The dispatch is given for every bound of the nesting of values of the types of
`Verif.Model.Universe` within, as these can be recursive; `poly` says whether objects behind `std::unique_ptr` are
handled by virtual serialization (dispatch/vrt/virtual_serialize_traits.h:95-98), `bytes` whether objects are copied
bytewise (`SerializableTraits::is_bytecopyable`, traits/serializable_traits.h). -/
structure CppType (T : Type) where
  ti : TI
  apply : Nat → Handler T
  fresh : T
  dflt : Option T
  copyable : Bool
  poly : Bool := false
  bytes : Bool := false

/-- The type as seen by the generic code. -/
def CppType.elem (t : CppType T) (n : Nat) : Elem T :=
  { ti := t.ti, apply := t.apply n, fresh := t.fresh, dflt := t.dflt, copyable := t.copyable }

/-- A type of `Verif.Model.Universe`. -/
def CppType.base (cfg : Cfg) (env : Env) (t : Ty) : CppType Val :=
  { ti := env.ti t, apply := fun n => dispatch cfg env n t, fresh := env.fresh t, dflt := env.dflt t,
    copyable := env.copyable t, poly := env.isVirt t, bytes := t.byteCopied }

/-- `std::vector<T>`, `T` not `bool` (container/vector_serialize.h:55-165).  Here and below: `ti` and `copyable` are
those of the container; it is default constructible. -/
def CppType.vector (cfg : Cfg) (ti : TI) (copyable : Bool) (t : CppType T) : CppType (Vec T) :=
  { ti := ti, apply := fun n => dispatchEach (serVector cfg ti.sizeof (t.elem n)), fresh := ⟨0, []⟩,
    dflt := some ⟨0, []⟩, copyable := copyable }

/-- `std::list<T>` or `std::deque<T>` (container/list_serialize.h:57-128). -/
def CppType.list (cfg : Cfg) (ti : TI) (copyable : Bool) (t : CppType T) : CppType (List T) :=
  { ti := ti, apply := fun n => dispatchEach (serList cfg ti.sizeof (t.elem n)), fresh := [], dflt := some [],
    copyable := copyable }

/-- `std::queue<T>` (container/queue_serialize.h:54-117). -/
def CppType.queue (cfg : Cfg) (ti : TI) (copyable : Bool) (t : CppType T) : CppType (List T) :=
  { ti := ti, apply := fun n => dispatchEach (serQueue cfg ti.sizeof (t.elem n)), fresh := [], dflt := some [],
    copyable := copyable }

/-- Ordered associative containers with comparison `lt` of elements (container/map_serialize.h:57-137); a map is a
container of pairs. -/
def CppType.ordered (cfg : Cfg) (ti : TI) (copyable : Bool) (a : Assoc) (lt : T → T → Bool) (t : CppType T) :
    CppType (List T) :=
  { ti := ti,
    apply := fun n => dispatchEach (serMapLike cfg ti.sizeof (if a.multi then emplaceMulti lt else emplaceUnique lt)
      (t.elem n)),
    fresh := [], dflt := some [], copyable := copyable }

/-- Unordered associative containers (container/map_serialize.h:57-137). -/
def CppType.unordered (cfg : Cfg) (ti : TI) (copyable : Bool) (a : Assoc) (eq : T → T → Bool)
    (arrange : List T → List T) (t : CppType T) : CppType (List T) :=
  { ti := ti,
    apply := fun n => dispatchEach (serMapLike cfg ti.sizeof (emplaceUnordered a.multi eq arrange) (t.elem n)),
    fresh := [], dflt := some [], copyable := copyable }

/-- `std::pair<A, B>` (container/tuple_serialize.h:75-80). -/
def CppType.pair (cfg : Cfg) (ti : TI) (a : CppType A) (b : CppType B) : CppType (A × B) :=
  { ti := ti, apply := fun n => dispatchEach (serPair cfg ti.sizeof (a.elem n) (b.elem n)),
    fresh := (a.fresh, b.fresh),
    dflt := match a.dflt, b.dflt with
      | some x, some y => some (x, y)
      | _, _ => none,
    copyable := a.copyable && b.copyable }

/-- `std::optional<T>` (container/optional_serialize.h:53-91). -/
def CppType.optional (cfg : Cfg) (ti : TI) (t : CppType T) : CppType (Option T) :=
  { ti := ti, apply := fun n => dispatchEach (serOptional cfg ti.sizeof (t.elem n)), fresh := none,
    dflt := some none, copyable := t.copyable }

/-- `std::unique_ptr<T>` where `T` is not serialized virtually (container/unique_ptr_serialize.h:53-80). -/
def CppType.uniquePtr (cfg : Cfg) (ti : TI) (t : CppType T) : CppType (Option T) :=
  { ti := ti, apply := fun n => dispatchEach (serUniquePtr cfg ti.sizeof (t.elem n) none), fresh := none,
    dflt := some none, copyable := false }

/-- `std::array<T, k>` and `T[k]` (container/array_serialize.h:54-57). -/
def CppType.array (cfg : Cfg) (ti : TI) (k : Nat) (t : CppType T) : CppType (List T) :=
  { ti := ti,
    apply := fun n => dispatchEach fun s xs =>
      if xs.length = k then serArray cfg (t.elem n) s xs else .ub .typeConfusion,
    fresh := List.replicate k t.fresh, dflt := t.dflt.map (List.replicate k), copyable := t.copyable }

/-- `Kokkos::View<..>` of any type, not of `const` elements (container/view_serialize.h).  Simplified: a view is a
value, views that share memory are different values. -/
def CppType.view (cfg : Cfg) (k : ViewTI) (ty : ViewTy) (t : CppType T) : CppType (View T) :=
  { ti := k.view, apply := fun n => (viewElem cfg k ty false (t.elem n)).apply, fresh := ty.empty,
    dflt := some ty.empty, copyable := true }

/-- `Kokkos::DynRankView<..>` (container/view_serialize.h). -/
def CppType.dynRank (cfg : Cfg) (k : DynTI) (l : Layout) (t : CppType T) : CppType (DynRank T) :=
  { ti := k.view, apply := fun n => (dynRankElem cfg k l (t.elem n)).apply, fresh := .empty,
    dflt := some .empty, copyable := true }

/-- `Kokkos::Experimental::DynamicView<..>` (container/view_serialize.h). -/
def CppType.dynamic (cfg : Cfg) (k : DynamicTI) (t : CppType T) : CppType (DynamicView T) :=
  { ti := k.view, apply := fun n => (dynamicElem cfg k (t.elem n)).apply, fresh := ⟨[], 0, 0, []⟩,
    dflt := some ⟨[], 0, 0, []⟩, copyable := true }

/-- `Kokkos::View<T const ..>` (`SerializeConst`, container/view_serialize.h:419-475). -/
def CppType.constView (cfg : Cfg) (k : ViewTI) (ty : ViewTy) (t : CppType T) : CppType (View T) :=
  { ti := k.view, apply := fun n => (viewElem cfg k ty true (t.elem n)).apply, fresh := ty.empty,
    dflt := some ty.empty, copyable := true }

/-- `Kokkos::UnorderedMap<A, B>` (container/kokkos_unordered_map_serialize.h:115-155). -/
def CppType.kmap (cfg : Cfg) (k : KMapTI) (h : KHash A B) (a : CppType A) (b : CppType B) : CppType (KMap A B) :=
  { ti := k.map, apply := fun n => (kmapElem cfg k h (a.elem n) (b.elem n)).apply, fresh := .make h 0,
    dflt := some (.make h 0), copyable := true }

/-- The types of the members a `serialize` function visits; `O` are their values. -/
inductive MemberTypes : Type → Type 1
  | nil : MemberTypes Unit
  | cons {A O : Type} (t : CppType A) (ms : MemberTypes O) : MemberTypes (A × O)

/-- `s | m1; s | m2; ...` (dispatch.impl.h:249-288). -/
def MemberTypes.visit (cfg : Cfg) (n : Nat) : {O : Type} → MemberTypes O → Ser → O → Out (O × Ser)
  | _, .nil, s, o => .ok (o, s)
  | _, .cons t ms, s, o => do
    let (x, s) ← pipe cfg (t.elem n) s o.1
    let (r, s) ← ms.visit cfg n s o.2
    .ok ((x, r), s)

/-- A class whose `serialize` function visits members of the given types (dispatch_serializer_nonbyte.h:174-201), with
the object its constructors make (dispatch/reconstructor.h:59-145). -/
def CppType.cls {O : Type} (cfg : Cfg) (ti : TI) (fresh : O) (dflt : Option O) (copyable : Bool) (ms : MemberTypes O) :
    CppType O :=
  { ti := ti, apply := fun n => dispatchEach (ms.visit cfg n), fresh := fresh, dflt := dflt, copyable := copyable }


/-! ### `std::tuple` -/

/-- `s | std::get<i>(x)` (container/tuple_serialize.h:59). -/
def MemberTypes.visitAt (cfg : Cfg) (n : Nat) : {O : Type} → MemberTypes O → Nat → Ser → O → Out (O × Ser)
  | _, .nil, _, _, _ => .ub .badRegion
  | _, .cons t _, 0, s, o => do
    let (x, s) ← pipe cfg (t.elem n) s o.1
    .ok ((x, o.2), s)
  | _, .cons _ ms, i + 1, s, o => do
    let (r, s) ← ms.visitAt cfg n i s o.2
    .ok ((o.1, r), s)

/-- The members with these indices, in this order. -/
def MemberTypes.visitOrder (cfg : Cfg) (n : Nat) {O : Type} (ms : MemberTypes O) : List Nat → Ser → O → Out (O × Ser)
  | [], s, o => .ok (o, s)
  | i :: is, s, o => do
    let (o, s) ← ms.visitAt cfg n i s o
    ms.visitOrder cfg n is s o

/-- `sizeof...(Args)`. -/
def MemberTypes.length : {O : Type} → MemberTypes O → Nat
  | _, .nil => 0
  | _, .cons _ ms => ms.length + 1

/-- Each member as constructed by the library. -/
def MemberTypes.fresh : {O : Type} → MemberTypes O → O
  | _, .nil => ()
  | _, .cons t ms => (t.fresh, ms.fresh)

/-- Each member default constructed, if that is possible for all of them. -/
def MemberTypes.dflt : {O : Type} → MemberTypes O → Option O
  | _, .nil => some ()
  | _, .cons t ms =>
    match t.dflt, ms.dflt with
    | some x, some r => some (x, r)
    | _, _ => none

/-- Whether all members can be copied. -/
def MemberTypes.copyable : {O : Type} → MemberTypes O → Bool
  | _, .nil => true
  | _, .cons t ms => t.copyable && ms.copyable

/-- `std::tuple<..>` (container/tuple_serialize.h:56-73, 82-89): `std::forward_as_tuple(((s | get<I>),0)...)`, the
arguments of which are evaluated in an unspecified order, `cfg.argOrder`. -/
def CppType.tuple {O : Type} (cfg : Cfg) (ti : TI) (ms : MemberTypes O) : CppType O :=
  { ti := ti, apply := fun n => dispatchEach (ms.visitOrder cfg n (cfg.argOrder ms.length)), fresh := ms.fresh,
    dflt := ms.dflt, copyable := ms.copyable }

/-! ### `std::variant` -/

/-- The alternatives of a variant; `V` are the values of any of them. -/
inductive AltTypes : Type → Type 1
  | nil : AltTypes Empty
  | cons {A V : Type} (t : CppType A) (as : AltTypes V) : AltTypes (A ⊕ V)

/-- `sizeof...(Args)`. -/
def AltTypes.length : {V : Type} → AltTypes V → Nat
  | _, .nil => 0
  | _, .cons _ as => as.length + 1

/-- The index of the alternative held. -/
def AltTypes.at : {V : Type} → AltTypes V → V → Nat
  | _, .cons _ _, .inl _ => 0
  | _, .cons _ as, .inr v => as.at v + 1

/-- `v.index()`; `none` is a variant that is valueless by exception, with `variant_npos`. -/
def AltTypes.index {V : Type} (as : AltTypes V) : Option V → Nat
  | some v => as.at v
  | none => sizeMod - 1

/-- The value if it is not one of the first alternative. -/
def beyondFirst {A V : Type} : Option (A ⊕ V) → Option V
  | some (.inr v) => some v
  | _ => none

/-- `SerializeEntry<Args...>::serialize(s, v, entry, cur)` (container/variant_serialize.h:58-91) with
`entry - cur`: walk the alternatives until it is zero; past the last alternative nothing happens. -/
def AltTypes.entry (cfg : Cfg) (n : Nat) : {V : Type} → AltTypes V → Ser → Option V → Nat → Out (Option V × Ser)
  | _, .nil, s, v, _ => .ok (v, s)
  | _, .cons t _, s, v, 0 =>
    if s.isUnpacking then do
      let (y, s) ← pipe cfg (t.elem n) s t.fresh
      .ok (some (.inl y), s)
    else
      match v with
      | some (.inl x) => do
        let (y, s) ← pipe cfg (t.elem n) s x
        .ok (some (.inl y), s)
      | _ => .throw .badVariantAccess
  | _, .cons _ as, s, v, e + 1 => do
    let (w, s) ← as.entry cfg n s (beyondFirst v) e
    match w with
    | some r => .ok (some (.inr r), s)
    | none => .ok (v, s)

/-- `serialize(s, std::variant<Args...>&)` (container/variant_serialize.h:118-123). -/
def AltTypes.serialize (cfg : Cfg) (n : Nat) {V : Type} (as : AltTypes V) (s : Ser) (v : Option V) :
    Out (Option V × Ser) := do
  let (entry, s) ← pipeSize cfg s (as.index v)
  as.entry cfg n s v entry

/-- `ByteCopyableVariant<Args...>::byte_copyable` (container/variant_serialize.h:93-106). -/
def AltTypes.allBytes : {V : Type} → AltTypes V → Bool
  | _, .nil => true
  | _, .cons t as => t.bytes && as.allBytes

/-- Whether all alternatives can be copied. -/
def AltTypes.copyable : {V : Type} → AltTypes V → Bool
  | _, .nil => true
  | _, .cons t as => t.copyable && as.copyable

/-- A variant constructed by the library: the first alternative. -/
def AltTypes.fresh : {V : Type} → AltTypes V → Option V
  | _, .nil => none
  | _, .cons t _ => some (.inl t.fresh)

/-- A default constructed variant. -/
def AltTypes.dflt : {V : Type} → AltTypes V → Option (Option V)
  | _, .nil => none
  | _, .cons t _ => t.dflt.map fun x => some (.inl x)

/-- `std::variant<..>` not all alternatives of which are byte-copyable (container/variant_serialize.h:112-123); the
others are types of `Verif.Model.Universe`. -/
def CppType.variant {V : Type} (cfg : Cfg) (ti : TI) (as : AltTypes V) : CppType (Option V) :=
  { ti := ti, apply := fun n => dispatchEach (as.serialize cfg n), fresh := as.fresh, dflt := as.dflt,
    copyable := as.copyable }

/-! ### Classes with virtual serialization -/

/-- A class of a hierarchy, as its own part of an object is handled: virtual dispatch was disabled for it
(dispatch/vrt/serializer_registry.h:112-121), and is enabled again before its members are visited
(dispatch_serializer_nonbyte.h:217-223). -/
def CppType.part {A : Type} (t : CppType A) (n : Nat) : Elem A :=
  { t.elem n with apply := fun s xs => t.apply n (s.setVdis false) xs }

/-- `_checkpointDynamicSerialize` of an object with the classes of these numbers, root first, and these types
(dispatch/vrt/base.h:55-69, derived.h:53-80), see `serChain`. -/
def MemberTypes.chain (cfg : Cfg) (reg : SerReg) (root n : Nat) :
    {O : Type} → MemberTypes O → List Nat → Ser → O → Out (O × Ser)
  | _, .nil, [], s, o => .ok (o, s)
  | _, .cons t ms, k :: ks, s, o => do
    let kind ← reg.lookup cfg.ndebug k root s.kind
    if kind ≠ s.kind then .ub .typeConfusion
    else
      let (x, s) ← pipe cfg (t.part n) (s.setVdis true) o.1
      let (r, s) ← ms.chain cfg reg root n ks s o.2
      .ok ((x, r), s)
  | _, .nil, _ :: _, _, _ => .ub .badRegion
  | _, .cons _ _, [], _, _ => .ub .badRegion

/-- Virtual dispatch handles the first object of an array only (dispatch_serializer_nonbyte.h:217-227,
dispatch/vrt/virtual_serialize.h:60-66). -/
def dispatchFirst {V : Type} (f : Ser → V → Out (V × Ser)) : Handler V := fun s xs =>
  match xs with
  | v :: rest => do
    let (v, s) ← f s v
    .ok (v :: rest, s)
  | [] => .ub .typeConfusion

/-- An object of class `d` of the program: its classes, root first, with the types `ms`; it is not behind a pointer.
Simplified: virtual dispatch is enabled, as it is disabled for the parts of an object only. -/
def CppType.object {O : Type} (cfg : Cfg) (env : Env) (d : Nat) (ti : TI) (fresh : O) (dflt : Option O) (copyable : Bool)
    (ms : MemberTypes O) : CppType O :=
  { ti := ti, apply := fun n => dispatchFirst (ms.chain cfg env.serReg (env.root d) n (env.chain d)), fresh := fresh,
    dflt := dflt, copyable := copyable, poly := true }

/-- The classes an object behind a pointer can be of: the number of each, the object its constructor makes
(dispatch/reconstructor.h:149-170), and its classes, root first. -/
inductive DynTypes : Type → Type 1
  | nil : DynTypes Empty
  | cons {O V : Type} (d : Nat) (fresh : O) (ms : MemberTypes O) (ds : DynTypes V) : DynTypes (O ⊕ V)

/-- Their numbers. -/
def DynTypes.classes : {V : Type} → DynTypes V → List Nat
  | _, .nil => []
  | _, .cons d _ _ ds => d :: ds.classes

/-- The class of an object. -/
def DynTypes.classOf : {V : Type} → DynTypes V → V → Nat
  | _, .cons d _ _ _, .inl _ => d
  | _, .cons _ _ _ ds, .inr v => ds.classOf v

/-- A new object of class `k`. -/
def DynTypes.make : {V : Type} → DynTypes V → Nat → Option V
  | _, .nil, _ => none
  | _, .cons d fresh _ ds, k => if d = k then some (.inl fresh) else (ds.make k).map .inr

/-- `virtualSerialize` (dispatch/vrt/virtual_serialize.h:60-66): by the class of the object. -/
def DynTypes.serialize (cfg : Cfg) (env : Env) (n : Nat) : {V : Type} → DynTypes V → Ser → V → Out (V × Ser)
  | _, .cons d _ ms _, s, .inl o => do
    let (o, s) ← ms.chain cfg env.serReg (env.root d) n (env.chain d) s o
    .ok (.inl o, s)
  | _, .cons _ _ _ ds, s, .inr v => do
    let (v, s) ← ds.serialize cfg env n s v
    .ok (.inr v, s)

/-- `allocateConcreteType` and `constructConcreteType` with index `i` (dispatch/vrt/object_registry.h:131-140) and the
cast to class `c` of the pointer, see `Env.construct`; a class that does not derive from `c` is not among `ds`. -/
def DynTypes.construct {V : Type} (cfg : Cfg) (env : Env) (c : Nat) (ds : DynTypes V) (i : Nat) : Out (Option V) :=
  match (env.objReg (env.root c))[i]? with
  | none => .throw .outOfRange
  | some d =>
    if (env.cls d).abstract then
      if cfg.ndebug then .ok none else .abort
    else
      match ds.make d with
      | some x => .ok (some x)
      | none => .ub .typeConfusion

/-- Virtual serialization behind a pointer to class `c`. -/
def DynTypes.virt {V : Type} (cfg : Cfg) (env : Env) (c : Nat) (ds : DynTypes V) : Virt V :=
  ⟨fun v => (env.objReg (env.root c)).idxOf (ds.classOf v), ds.construct cfg env c⟩

/-- An object behind a pointer to a class of type `cti`.  `any` is not used: new objects are made from a class index. -/
def DynTypes.elem {V : Type} (cfg : Cfg) (env : Env) (cti : TI) (any : V) (ds : DynTypes V) (n : Nat) : Elem V :=
  { ti := cti, apply := dispatchFirst (ds.serialize cfg env n), fresh := any, dflt := none, copyable := false }

/-- `std::unique_ptr<C>` to a class with virtual serialization, of number `c` and type `cti`
(container/unique_ptr_serialize.h:53-80). -/
def CppType.polyPtr {V : Type} (cfg : Cfg) (env : Env) (ti : TI) (c : Nat) (cti : TI) (any : V) (ds : DynTypes V) :
    CppType (Option V) :=
  { ti := ti,
    apply := fun n => dispatchEach
      (serUniquePtr cfg ti.sizeof (ds.elem cfg env cti any n) (some (ds.virt cfg env c))),
    fresh := none, dflt := some none, copyable := false }

end Ckpt
