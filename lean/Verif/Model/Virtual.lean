import Verif.Model.Containers
/-!
# Registries for virtual serialization

src/checkpoint/dispatch/vrt/object_registry.h, serializer_registry.h, serialize_instantiator.h,
link_derived_to_base_idx.h.  Classes are numbered; a hierarchy is named by its root class.
-/

set_option autoImplicit false

namespace Ckpt

/-! ## Object registry -/

/-- `objregistry::getRegistry<BaseT>()` (object_registry.h:93-97): the classes of one hierarchy in the
order in which their `Registrar` ran; the index of a class is its position
(object_registry.h:99-116). -/
abbrev ObjReg := List Nat

/-- `Registrar<ObjT>::Registrar()` (object_registry.h:99-116), run once per class
(static member initialisation, 118-119). -/
def ObjReg.register (r : ObjReg) (d : Nat) : ObjReg := if d ∈ r then r else r ++ [d]

/-- `makeObjIdx<ObjT>()` (object_registry.h:142-145). -/
def ObjReg.idxOf (r : ObjReg) (d : Nat) : Nat := List.idxOf d r

/-! ## Serializer registry -/

/-- `SerializerEntry<ObjT>` (serializer_registry.h:57-74): the serializer class the stored closure
casts to, and `base_idx_` (`none` is `no_type_idx`). -/
structure SerEntry where
  kind : Kind
  base : Option Nat
  deriving DecidableEq, Repr

/-- `serializer_registry::getRegistry<ObjT>()` for every class (serializer_registry.h:90-94). -/
abbrev SerReg := Nat → List SerEntry

/-- `Registrar<ObjT, SerializerT>` (serializer_registry.h:100-125), run once per pair
(static member initialisation, 127-129). -/
def SerReg.register (r : SerReg) (c : Nat) (k : Kind) : SerReg := fun c' =>
  if c' = c then
    if (r c).any (·.kind == k) then r c else r c ++ [{ kind := k, base := none }]
  else r c'

/-- `makeObjIdx<ObjT, SerializerT>()` (serializer_registry.h:95-98): position of the entry. -/
def SerReg.idxOf (r : SerReg) (c : Nat) (k : Kind) : Nat := (r c).findIdx (·.kind == k)

/-- `linkDerivedToBase<SerializerT, DerivedT, BaseT>()` (link_derived_to_base_idx.h:51-59). -/
def SerReg.link (r : SerReg) (d b : Nat) (k : Kind) : SerReg := fun c' =>
  if c' = d then
    (r d).mapIdx fun i en => if i = r.idxOf d k then { en with base := some (r.idxOf b k) } else en
  else r c'

/-- `InstantiateIfPossible<ObjT, SerializerT>::registerIt()` (serialize_instantiator.h:58-82).
Naming `Type<..>::idx` instantiates both registrars, so both entries exist. -/
def SerReg.registerIt (r : SerReg) (d root : Nat) (k : Kind) : SerReg :=
  (((r.register d k).register root k).link d root k)

/-- The serializer classes of `checkpoint_serializer_variadic_args()`
(serializers/serializers_headers.h:55-64). -/
def builtinKinds : List Kind :=
  [.footprinter, .packer, .packerUserBuf, .packerIO, .unpacker, .unpackerIO, .sizer,
   .streamPacker, .streamUnpacker]

/-- `instantiateObjSerializer<ObjT, checkpoint_serializer_variadic_args()>()`
(serialize_instantiator.h:100-124), called at the start of `_checkpointDynamicSerialize`
(base.h:61-64, derived.h:61-64).  Simplified: every class is compatible with every built-in
serializer. -/
def SerReg.instantiate (r : SerReg) (d root : Nat) : SerReg :=
  builtinKinds.foldl (fun r k => r.registerIt d root k) r

/-- `getObjIdx<ObjT>(han)` (serializer_registry.h:131-145): the serializer class of the closure found.
With `NDEBUG` the assertion does not stop and `vector::at` throws. -/
def SerReg.getObjIdx (ndebug : Bool) (r : SerReg) (c han : Nat) : Out Kind := do
  Out.assertThat ndebug (decide (han < (r c).length))
  match (r c)[han]? with
  | some en => .ok en.kind
  | none => .throw .outOfRange

/-- `getBaseIdx<DerivedT>(base_idx)` (serializer_registry.h:147-159) followed by the call of the
returned function: an empty function throws `bad_function_call`. -/
def SerReg.getBaseIdx (ndebug : Bool) (r : SerReg) (d baseIdx : Nat) : Out Kind :=
  match (r d).find? (fun en => en.base == some baseIdx) with
  | some en => .ok en.kind
  | none => do
    Out.assertThat ndebug false
    .throw .badFunctionCall

/-- The serializer class whose closure runs for class `d` of the hierarchy `root` when
`virtualSerialize` (virtual_serialize.h:60-66) is called with a serializer of class `k`:
`_checkpointDynamicSerialize` of the root (base.h:55-69) and of derived classes (derived.h:53-80).
`makeObjIdx<BaseT, SerializerT>()` registers the base entry for `k`. -/
def SerReg.lookup (ndebug : Bool) (r : SerReg) (d root : Nat) (k : Kind) : Out Kind :=
  let r := (r.register root k).instantiate d root
  if d = root then r.getObjIdx ndebug root (r.idxOf root k)
  else r.getBaseIdx ndebug d (r.idxOf root k)

/-! ## Virtual dispatch -/

variable {P : Type}

/-- The part of an object that belongs to class `k` of its hierarchy, as a type for the generic code:
`ser | obj` in the closure (serializer_registry.h:116-121) has static type `k`. -/
def partElem (ti : TI) (h : Handler P) (dummy : P) : Elem P :=
  { ti := ti, apply := h, fresh := dummy, dflt := none, copyable := false }

/-- `_checkpointDynamicSerialize` for an object whose classes, root first, are `ks` with parts
`ps` (derived.h:53-80 calls the parent first; base.h:55-69): for each class look up the closure,
disable virtual dispatch and serialize the part (serializer_registry.h:112-121).  Calling the
closure of another serializer class is undefined behaviour. -/
def serChain (cfg : Cfg) (reg : SerReg) (root : Nat) (part : Nat → Elem P) :
    List Nat → Ser → List P → Out (List P × Ser)
  | [], s, [] => .ok ([], s)
  | k :: ks, s, p :: ps => do
    let kind ← reg.lookup cfg.ndebug k root s.kind
    if kind ≠ s.kind then .ub .typeConfusion
    else
      let (q, s) ← pipe cfg (part k) (s.setVdis true) p
      let (qs, s) ← serChain cfg reg root part ks s ps
      .ok (q :: qs, s)
  | _, _, _ => .ub .badRegion

end Ckpt
