import Verif.Model.Virtual
/-!
# A closed universe of types

`Ty` describes C++ types built from fundamental types, the supported containers and user classes;
`Val` their values.  `dispatch` interprets a description with the container functions.
-/

set_option autoImplicit false

namespace Ckpt

/-- The four flavours of associative containers; ordered or unordered is a separate choice. -/
inductive Assoc
  | set | multiset | map | multimap
  deriving DecidableEq, Repr

/-- `multiset` / `multimap`. -/
def Assoc.multi : Assoc → Bool
  | .set | .map => false
  | .multiset | .multimap => true

/-- `std::list` or `std::deque`. -/
inductive SeqKind
  | list | deque
  deriving DecidableEq, Repr

/-- Types.  Comparators, equality functions and classes are named by numbers.  An associative map is
described by the type of its elements, a pair. -/
inductive Ty
  /-- byte-copyable type of `size` bytes (traits/serializable_traits.h:68-87, 153-159). -/
  | prim (id size : Nat)
  /-- enumeration with an underlying type of `size` bytes (container/enum_serialize.h). -/
  | enm (id pid size : Nat)
  /-- `std::chrono::duration` with representation of `size` bytes (container/chrono_serialize.h). -/
  | chrono (id pid size : Nat)
  | str
  | vec (t : Ty)
  | vecBool
  | seq (k : SeqKind) (t : Ty)
  | queue (t : Ty)
  | oset (a : Assoc) (cmp : Nat) (t : Ty)
  | uset (a : Assoc) (eq : Nat) (t : Ty)
  | pair (a b : Ty)
  | tuple (ts : List Ty)
  | opt (t : Ty)
  | variant (ts : List Ty)
  | uptr (t : Ty)
  | arr (n : Nat) (t : Ty)
  | cls (c : Nat)

mutual
/-- `SerializableTraits<T>::is_bytecopyable` (traits/serializable_traits.h:153-162): byte-copyable types, and variants of
them only (`ByteCopyNonIntrusive<std::variant<..>>`, container/variant_serialize.h:95-116). -/
def Ty.byteCopied : Ty → Bool
  | .prim _ _ => true
  | .variant ts => Ty.allByteCopied ts
  | _ => false

/-- `ByteCopyableVariant<Args...>::byte_copyable` (container/variant_serialize.h:95-108). -/
def Ty.allByteCopied : List Ty → Bool
  | [] => true
  | t :: ts => t.byteCopied && Ty.allByteCopied ts
end

/-- Values.  A byte-copied object is its representation.  `coll` is the element sequence of lists, deques, queues, associative containers (in
iteration order), arrays, pairs and tuples; `obj d parts` is an object whose dynamic type is class
`d`, with the visited members of each of its classes, root first. -/
inductive Val
  | raw (bs : Bytes)
  | str (x : Str)
  | vec (cap : Nat) (xs : List Val)
  | vbool (cap : Nat) (bs : List Bool)
  | coll (xs : List Val)
  | opt (x : Option Val)
  | variant (i : Nat) (x : Val)
  | valueless
  | ptr (x : Option Val)
  | obj (d : Nat) (parts : List (List Val))

instance : Inhabited Val := ⟨.valueless⟩

/-- A user class: the members its own `serialize` function visits, in order, when not unpacking and
when unpacking (a `serialize` function may ask `s.isUnpacking()`); whether it takes part in
virtual serialization; the classes it derives from, root first; whether it can be constructed. -/
structure ClassDef where
  fields : List Ty
  rfields : List Ty := fields
  virt : Bool := false
  bases : List Nat := []
  abstract : Bool := false

/-- The members the `serialize` function of a class visits with serializer `s`. -/
def ClassDef.visited (c : ClassDef) (s : Ser) : List Ty := if s.isUnpacking then c.rfields else c.fields

/-- Everything the library gets from the program and the standard library. -/
structure Env where
  /-- type index, name and size of each type. -/
  ti : Ty → TI
  /-- the object `Reconstructor<T>::construct` creates (dispatch/reconstructor.h). -/
  fresh : Ty → Val
  /-- the value-initialised object, if default constructible. -/
  dflt : Ty → Option Val
  /-- `std::is_copy_constructible`. -/
  copyable : Ty → Bool
  /-- comparators of ordered containers. -/
  lt : Nat → Val → Val → Bool
  /-- key equality of unordered containers. -/
  eq : Nat → Val → Val → Bool
  /-- iteration order of an unordered container after an insertion. -/
  arrange : Nat → List Val → List Val
  cls : Nat → ClassDef
  /-- object registry of each hierarchy. -/
  objReg : Nat → ObjReg
  /-- serializer registries. -/
  serReg : SerReg

namespace Env
variable (env : Env)

/-- All classes of an object of class `d`, root first. -/
def chain (d : Nat) : List Nat := (env.cls d).bases ++ [d]

/-- `checkpoint_base_type_t` (dispatch/vrt/registry_common.h:56-71): the root of the hierarchy. -/
def root (d : Nat) : Nat := ((env.cls d).bases ++ [d]).head (by simp)

/-- `VirtualSerializeTraits<T>::has_virtual_serialize` (dispatch/vrt/virtual_serialize_traits.h:95-98). -/
def isVirt : Ty → Bool
  | .cls c => (env.cls c).virt
  | _ => false

/-- `_checkpointDynamicTypeIndex()` (base.h:70-75, derived.h:81-86). -/
def dynIdx (c : Nat) : Val → Nat
  | .obj d _ => (env.objReg (env.root c)).idxOf d
  | _ => 0

/-- `allocateConcreteType` and `constructConcreteType` (object_registry.h:131-140) and the cast to the
static type `c` (virtual_serialize.h:182-187); a class that cannot be constructed fails an
assertion, and gives a null pointer with `NDEBUG` (reconstructor.h:149-170).  Simplified: `TypeIdx`
is converted to `size_t`, so an index outside the registry makes `at` throw. -/
def construct (cfg : Cfg) (c : Nat) (i : Nat) : Out (Option Val) :=
  match (env.objReg (env.root c))[i]? with
  | none => .throw .outOfRange
  | some d =>
    if (env.cls d).abstract then
      if cfg.ndebug then .ok none else .abort
    else if c ∈ env.chain d then .ok (some (env.fresh (.cls d)))
    else .ub .typeConfusion

/-- Virtual serialization of a pointee type, if it has any. -/
def virt (cfg : Cfg) : Ty → Option (Virt Val)
  | .cls c => if (env.cls c).virt then some ⟨env.dynIdx c, env.construct cfg c⟩ else none
  | _ => none

/-- `cont.emplace` of an associative container. -/
def emplaceO (a : Assoc) (cmp : Nat) : List Val → Val → List Val :=
  if a.multi then emplaceMulti (env.lt cmp) else emplaceUnique (env.lt cmp)

/-- `cont.emplace` of an unordered associative container. -/
def emplaceU (a : Assoc) (eq : Nat) : List Val → Val → List Val :=
  emplaceUnordered a.multi (env.eq eq) (env.arrange eq)

/-- Type `t` for the generic code, given its dispatch. -/
def elemOf (h : Handler Val) (t : Ty) : Elem Val :=
  { ti := env.ti t, apply := h, fresh := env.fresh t, dflt := env.dflt t, copyable := env.copyable t }

end Env

/-- The arithmetic type `pid` of `size` bytes as an element type. -/
def primElem (env : Env) (pid size : Nat) : Elem Bytes :=
  { ti := env.ti (.prim pid size), apply := dispatchByte size,
    fresh := List.replicate size 0, dflt := some (List.replicate size 0), copyable := true }

/-- The bytes of a value that is its bytes. -/
def Val.raw? : Val → Option Bytes
  | .raw bs => some bs
  | _ => none

/-- Apply a function on representations to raw values. -/
def onRaw (h : Handler Bytes) : Handler Val := fun s xs =>
  match xs.mapM Val.raw? with
  | some ys => do
    let (zs, s) ← h s ys
    .ok (zs.map .raw, s)
  | none => .ub .typeConfusion

/-- Apply a function on the parts of class `c` of objects, in place
(dispatch_serializer_nonbyte.h:217-223 with virtual dispatch disabled). -/
def onPart (env : Env) (c : Nat) (f : Ser → List Val → Out (List Val × Ser)) (s : Ser) :
    Val → Out (Val × Ser)
  | .obj d parts =>
    match parts[List.idxOf c (env.chain d)]? with
    | some p => do
      let (q, s) ← f s p
      .ok (.obj d (parts.set (List.idxOf c (env.chain d)) q), s)
    | none => .ub .typeConfusion
  | _ => .ub .typeConfusion

/-- A variant that is not byte-copyable (container/variant_serialize.h:118-125); `es` are its alternatives. -/
def dispatchVariant (cfg : Cfg) (es : List (Elem Val)) : Handler Val :=
  dispatchEach fun s v => do
    let x : Variant Val ← match v with
      | .variant i x => .ok (.holds i x)
      | .valueless => .ok .valueless
      | _ => .ub .typeConfusion
    let (x, s) ← serVariant cfg es s x
    match x with
    | .holds i x => .ok (.variant i x, s)
    | .valueless => .ok (.valueless, s)

/-- `SerializerDispatch` for type `t`: byte copy (dispatch_serializer_byte.h:66-71) or the `serialize`
function found for the type (dispatch_serializer_nonbyte.h:174-234); `h` is the dispatch of the types
it contains. -/
def dispatchStep (cfg : Cfg) (env : Env) (h : Ty → Handler Val) (t : Ty) : Handler Val :=
  let elem (t : Ty) : Elem Val := env.elemOf (h t) t
  match t with
  | .prim _ size => onRaw (dispatchByte size)
  | .enm _ pid size | .chrono _ pid size =>
    dispatchEach fun s v =>
      match v with
      | .raw bs => do
        let (bs, s) ← serUnderlying cfg (primElem env pid size) s bs
        .ok (.raw bs, s)
      | _ => .ub .typeConfusion
  | .str =>
    dispatchEach fun s v =>
      match v with
      | .str x => do
        let (x, s) ← serString cfg (env.ti .str).sizeof s x
        .ok (.str x, s)
      | _ => .ub .typeConfusion
  | .vec t =>
    dispatchEach fun s v =>
      match v with
      | .vec cap xs => do
        let (v, s) ← serVector cfg (env.ti (.vec t)).sizeof (elem t) s ⟨cap, xs⟩
        .ok (.vec v.cap v.elems, s)
      | _ => .ub .typeConfusion
  | .vecBool =>
    dispatchEach fun s v =>
      match v with
      | .vbool cap bs => do
        let (v, s) ← serVectorBool cfg (env.ti .vecBool).sizeof s ⟨cap, bs⟩
        .ok (.vbool v.cap v.elems, s)
      | _ => .ub .typeConfusion
  | .seq k t =>
    dispatchEach fun s v =>
      match v with
      | .coll xs => do
        let (xs, s) ← serList cfg (env.ti (.seq k t)).sizeof (elem t) s xs
        .ok (.coll xs, s)
      | _ => .ub .typeConfusion
  | .queue t =>
    dispatchEach fun s v =>
      match v with
      | .coll xs => do
        let (xs, s) ← serQueue cfg (env.ti (.queue t)).sizeof (elem t) s xs
        .ok (.coll xs, s)
      | _ => .ub .typeConfusion
  | .oset a cmp t =>
    dispatchEach fun s v =>
      match v with
      | .coll xs => do
        let (xs, s) ← serMapLike cfg (env.ti (.oset a cmp t)).sizeof (env.emplaceO a cmp) (elem t) s xs
        .ok (.coll xs, s)
      | _ => .ub .typeConfusion
  | .uset a eq t =>
    dispatchEach fun s v =>
      match v with
      | .coll xs => do
        let (xs, s) ← serMapLike cfg (env.ti (.uset a eq t)).sizeof (env.emplaceU a eq) (elem t) s xs
        .ok (.coll xs, s)
      | _ => .ub .typeConfusion
  | .pair a b =>
    dispatchEach fun s v =>
      match v with
      | .coll [x, y] => do
        let (p, s) ← serPair cfg (env.ti (.pair a b)).sizeof (elem a) (elem b) s (x, y)
        .ok (.coll [p.1, p.2], s)
      | _ => .ub .typeConfusion
  | .tuple ts =>
    dispatchEach fun s v =>
      match v with
      | .coll xs => do
        let (xs, s) ← serTuple cfg (ts.map elem) s xs
        .ok (.coll xs, s)
      | _ => .ub .typeConfusion
  | .opt t =>
    dispatchEach fun s v =>
      match v with
      | .opt x => do
        let (x, s) ← serOptional cfg (env.ti (.opt t)).sizeof (elem t) s x
        .ok (.opt x, s)
      | _ => .ub .typeConfusion
  | .variant ts =>
    if Ty.allByteCopied ts then onRaw (dispatchByte (env.ti (.variant ts)).sizeof)
    else dispatchVariant cfg (ts.map elem)
  | .uptr t =>
    dispatchEach fun s v =>
      match v with
      | .ptr x => do
        let (x, s) ← serUniquePtr cfg (env.ti (.uptr t)).sizeof (elem t) (env.virt cfg t) s x
        .ok (.ptr x, s)
      | _ => .ub .typeConfusion
  | .arr k t =>
    dispatchEach fun s v =>
      match v with
      | .coll xs =>
        if xs.length = k then do
          let (xs, s) ← serArray cfg (elem t) s xs
          .ok (.coll xs, s)
        else .ub .typeConfusion
      | _ => .ub .typeConfusion
  | .cls c =>
    let members (k : Nat) (s : Ser) (p : List Val) := serMembers cfg (((env.cls k).visited s).map elem) s p
    if (env.cls c).virt then
      fun s xs =>
        if s.vdis then dispatchEach (onPart env c (members c)) (s.setVdis false) xs
        else
          match xs with
          | .obj d parts :: rest => do
            let (parts, s) ← serChain cfg env.serReg (env.root d)
              (fun k => partElem (env.ti (.cls k))
                (fun s ps => dispatchEach (members k) (s.setVdis false) ps) [])
              (env.chain d) s parts
            .ok (.obj d parts :: rest, s)
          | _ => .ub .typeConfusion
    else
      dispatchEach (onPart env c (members c))

/-- `SerializerDispatch` for type `t`; `n` bounds the nesting of the value (types can be recursive). -/
def dispatch (cfg : Cfg) (env : Env) : Nat → Ty → Handler Val
  | 0, _ => fun _ _ => .fuel
  | n + 1, t => dispatchStep cfg env (dispatch cfg env n) t

/-- Type `t` with nesting bound `n`. -/
def elem (cfg : Cfg) (env : Env) (n : Nat) (t : Ty) : Elem Val := env.elemOf (dispatch cfg env n t) t

end Ckpt
