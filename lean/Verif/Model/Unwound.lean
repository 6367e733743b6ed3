import Verif.Model.Api
import Verif.Model.File
import Verif.Model.Universe
/-!
# Objects after an exception

The functions of the other modules give the value of an object after a call that returned.  Here, for reading, the value
of the object after the call *has ended*, by returning or by throwing: `fooEnd` belongs to `foo`, is built from the same
calls, and says in addition which of the assignments made by `foo` have been made when one of the calls throws.  Only
unpackers are considered (`s.isUnpacking`).

Simplification common to all: moves, copies, comparisons and emplacements of user types do not throw.
-/

set_option autoImplicit false

namespace Ckpt

variable {T : Type}

/-- What follows a call: `f` when it has returned, `g` when it has thrown.  A failed assertion ends the program. -/
def Out.after {α β : Type} (o : Out α) (f : α → Out β) (g : Out β) : Out β :=
  match o with
  | .ok a => f a
  | .throw _ => g
  | .abort => .abort
  | .ub u => .ub u
  | .fuel => .fuel

/-- The array after a call of `SerializerDispatch<SerializerT, T, ..>::operator()` (dispatch_serializer_byte.h:66-78)
that returned or threw. -/
abbrev Residue (T : Type) := Ser → List T → Out (List T)

/-! ## Bytes, headers, dispatch -/

/-- The memory at `ptr` after `contiguousBytes`: `istream::read` (serializers/stream_serializer.h:82) stores the bytes
there are before the stream fails and the exception is thrown (83-84); the other unpacker does not throw. -/
def bytesEnd (s : Ser) (size num : Nat) (data : Bytes) : Out Bytes :=
  (s.contiguousBytes size num data).after (fun r => .ok r.1)
    (match s.core with
    | .streamUnpacker inp _ => .ok (inp ++ data.drop inp.length)
    | _ => .ok data)

/-- `SerializerDispatchByte` (dispatch_serializer_byte.h:66-71). -/
def dispatchByteEnd (size : Nat) : Residue Bytes := fun s xs => do
  let bs ← bytesEnd s size xs.length xs.flatten
  .ok (chunks size xs.length bs)

/-- `Traverse::with(target, t, len)` (dispatch.impl.h:136-167): the header is read before the objects, the trailer
after them. -/
def traverseEnd (cfg : Cfg) (ti : TI) (h : Handler T) (r : Residue T) (s : Ser) (xs : List T) : Out (List T) :=
  if cfg.check then
    (withTypeIdx cfg ti s).after
      (fun s => (h s xs).after
        (fun q => (withMemUsed cfg ti q.2 xs.length).after (fun _ => .ok q.1) (.ok q.1))
        (r s xs))
      (.ok xs)
  else r s xs

/-- `s | x` (dispatch.impl.h:56-59). -/
def pipeEnd (cfg : Cfg) (e : Elem T) (r : Residue T) (s : Ser) (x : T) : Out T := do
  let ys ← traverseEnd cfg e.ti e.apply r s [x]
  match ys with
  | [y] => .ok y
  | _ => .ub .badRegion

/-- `s | x` for each element of a container in turn. -/
def pipeEachEnd (cfg : Cfg) (e : Elem T) (r : Residue T) : Ser → List T → Out (List T)
  | _, [] => .ok []
  | s, x :: xs =>
    (pipe cfg e s x).after
      (fun q => do
        let ys ← pipeEachEnd cfg e r q.2 xs
        .ok (q.1 :: ys))
      (do
        let y ← pipeEnd cfg e r s x
        .ok (y :: xs))

/-- `dispatch::serializeArray(s, array, len)` (dispatch.impl.h:229-234). -/
def serializeArrayEnd (cfg : Cfg) (e : Elem T) (r : Residue T) (s : Ser) (xs : List T) : Out (List T) :=
  if xs.length > 0 then traverseEnd cfg e.ti e.apply r s xs else .ok xs

/-- `SerializerDispatchNonByte::applyStatic` (dispatch_serializer_nonbyte.h:174-201): `f` is the call for one object,
`g` the object after it. -/
def dispatchEachEnd (f : Ser → T → Out (T × Ser)) (g : Ser → T → Out T) : Residue T
  | _, [] => .ok []
  | s, x :: xs =>
    (f s x).after
      (fun q => do
        let ys ← dispatchEachEnd f g q.2 xs
        .ok (q.1 :: ys))
      (do
        let y ← g s x
        .ok (y :: xs))

/-- `Traverse::with<T, TraverserT>(target, args...)` (dispatch.impl.h:169-188). -/
def traverseTopEnd (cfg : Cfg) (e : Elem T) (r : Residue T) (s : Ser) (x : T) : Out T :=
  if cfg.check then pipeEnd cfg e r s x
  else
    (withTypeIdx cfg e.ti s).after
      (fun s => (pipe cfg e s x).after
        (fun q => (withMemUsed cfg e.ti q.2 1).after (fun _ => .ok q.1) (.ok q.1))
        (pipeEnd cfg e r s x))
      (.ok x)

/-! ## Containers -/

/-- `serialize(s, std::vector<T>&)` (container/vector_serialize.h:57-69, 109-121): the vector has its new capacity before
the size is read, and all of its elements before the first of them is read. -/
def serVectorEnd (cfg : Cfg) (e : Elem T) (r : Residue T) (s : Ser) (v : Vec T) : Out (Vec T) :=
  (pipeSize cfg s v.cap).after
    (fun q =>
      let v := v.reserve cfg q.1
      (pipeSize cfg q.2 v.elems.length).after
        (fun q => do
          let v := constructVectorData cfg e q.1 v
          let es ← serializeArrayEnd cfg e r q.2 v.elems
          .ok { v with elems := es })
        (.ok v))
    (.ok v)

/-- Loop of `serialize(s, std::vector<bool>&)` (container/vector_serialize.h:138-143): the element is assigned after it
has been read. -/
def unpackBoolsEnd (cfg : Cfg) : Ser → List Bool → Out (List Bool)
  | _, [] => .ok []
  | s, b :: bs =>
    (pipeBool cfg s false).after
      (fun q => do
        let bs ← unpackBoolsEnd cfg q.2 bs
        .ok (q.1 :: bs))
      (.ok (b :: bs))

/-- `serialize(s, std::vector<bool>&)` (container/vector_serialize.h:57-69, 123-145). -/
def serVectorBoolEnd (cfg : Cfg) (s : Ser) (v : Vec Bool) : Out (Vec Bool) :=
  (pipeSize cfg s v.cap).after
    (fun q =>
      let v := v.reserve cfg q.1
      (pipeSize cfg q.2 v.elems.length).after
        (fun q => do
          let v := v.resize cfg q.1 false
          let bs ← unpackBoolsEnd cfg q.2 v.elems
          .ok { v with elems := bs })
        (.ok v))
    (.ok v)

/-- `serialize(s, std::string&)` (container/string_serialize.h:53-79): the string has its new length before its characters
are read. -/
def serStringEnd (cfg : Cfg) (s : Ser) (x : Str) : Out Str :=
  (pipeSize cfg s x.chars.length).after
    (fun q => do
      let x := x.resize cfg q.1
      let ys ← serializeArrayEnd cfg (charElem cfg) (dispatchByteEnd 1) q.2 (x.chars.map fun c => [c])
      .ok { x with chars := ys.flatten })
    (.ok x)

/-- The loops that construct an element, read it, and hand it to the container (container/map_serialize.h:72-77,
list_serialize.h:91-95, queue_serialize.h:62-66): the element being read is not in the container yet. -/
def unpackLoopEnd (cfg : Cfg) (e : Elem T) (add : List T → T → List T) : Nat → Ser → List T → Out (List T)
  | 0, _, acc => .ok acc
  | n + 1, s, acc =>
    (pipe cfg e s e.fresh).after (fun q => unpackLoopEnd cfg e add n q.2 (add acc q.1)) (.ok acc)

/-- `deserializeOrderedElems` (container/list_serialize.h:57-97): a container of copy constructible elements is resized
first. -/
def deserializeOrderedElemsEnd (cfg : Cfg) (e : Elem T) (r : Residue T) (s : Ser) (xs : List T) (n : Nat) :
    Out (List T) :=
  if e.copyable then pipeEachEnd cfg e r s (seqResize xs n e.fresh)
  else unpackLoopEnd cfg e (fun acc y => acc ++ [y]) n s xs

/-- `serializeOrderedContainer` (container/list_serialize.h:107-118). -/
def serListEnd (cfg : Cfg) (e : Elem T) (r : Residue T) (s : Ser) (xs : List T) : Out (List T) :=
  (pipeSize cfg s xs.length).after (fun q => deserializeOrderedElemsEnd cfg e r q.2 xs q.1) (.ok xs)

/-- `serializeMapLikeContainer` (container/map_serialize.h:86-97) and `serializeQueueLikeContainer`
(container/queue_serialize.h:75-95); `add` is the container's `emplace` or `push`. -/
def serGrowEnd (cfg : Cfg) (add : List T → T → List T) (e : Elem T) (s : Ser) (xs : List T) : Out (List T) :=
  (pipeSize cfg s xs.length).after (fun q => unpackLoopEnd cfg e add q.1 q.2 xs) (.ok xs)

/-- `s | m1; s | m2; ...`: the members in order. -/
def serMembersEnd (cfg : Cfg) : List (Elem T × Residue T) → Ser → List T → Out (List T)
  | [], _, [] => .ok []
  | e :: es, s, x :: xs =>
    (pipe cfg e.1 s x).after
      (fun q => do
        let ys ← serMembersEnd cfg es q.2 xs
        .ok (q.1 :: ys))
      (do
        let y ← pipeEnd cfg e.1 e.2 s x
        .ok (y :: xs))
  | _, _, _ => .ub .badRegion

/-- `serialize(s, std::pair<T, U>&)` (container/tuple_serialize.h:75-80). -/
def serPairEnd {A B : Type} (cfg : Cfg) (e1 : Elem A) (r1 : Residue A) (e2 : Elem B) (r2 : Residue B) (s : Ser)
    (x : A × B) : Out (A × B) :=
  (pipe cfg e1 s x.1).after
    (fun q => do
      let b ← pipeEnd cfg e2 r2 q.2 x.2
      .ok (q.1, b))
    (do
      let a ← pipeEnd cfg e1 r1 s x.1
      .ok (a, x.2))

/-- The members of a tuple (container/tuple_serialize.h:56-61), visited in the given order. -/
def visitMembersEnd (cfg : Cfg) (es : List (Elem T × Residue T)) : List Nat → Ser → List T → Out (List T)
  | [], _, xs => .ok xs
  | i :: is, s, xs =>
    match es[i]?, xs[i]? with
    | some e, some x =>
      (pipe cfg e.1 s x).after
        (fun q => visitMembersEnd cfg es is q.2 (xs.set i q.1))
        (do
          let y ← pipeEnd cfg e.1 e.2 s x
          .ok (xs.set i y))
    | _, _ => .ub .badRegion

/-- `deserializeOptional` (container/optional_serialize.h:53-73): the value is read into a separate object and assigned
afterwards. -/
def serOptionalEnd (cfg : Cfg) (e : Elem T) (s : Ser) (x : Option T) : Out (Option T) :=
  (pipeBool cfg s false).after
    (fun q =>
      if q.1 then (pipe cfg e q.2 e.fresh).after (fun q => .ok (some q.1)) (.ok x)
      else .ok none)
    (.ok x)

/-- `SerializeEntry<Args...>::serialize` when unpacking (container/variant_serialize.h:66-73): likewise. -/
def serializeEntryEnd (cfg : Cfg) : List (Elem T) → Ser → Variant T → Nat → Nat → Out (Variant T)
  | [], _, v, _, _ => .ok v
  | e :: es, s, v, entry, cur =>
    if entry = cur then (pipe cfg e s e.fresh).after (fun q => .ok (.holds cur q.1)) (.ok v)
    else serializeEntryEnd cfg es s v entry (cur + 1)

/-- `serialize(s, std::variant<Args...>&)` (container/variant_serialize.h:117-121). -/
def serVariantEnd (cfg : Cfg) (es : List (Elem T)) (s : Ser) (v : Variant T) : Out (Variant T) :=
  (pipeSize cfg s v.index).after (fun q => serializeEntryEnd cfg es q.2 v q.1 0) (.ok v)

/-- `serializeEnum` (container/enum_serialize.h:54-63) and durations (container/chrono_serialize.h:53-58): assigned after
the underlying value has been read into a local variable. -/
def serUnderlyingEnd (cfg : Cfg) (under : Elem T) (s : Ser) (x : T) : Out T :=
  (pipe cfg under s x).after (fun q => .ok q.1) (.ok x)

/-- `serialize(s, std::unique_ptr<T>&)` (container/unique_ptr_serialize.h:53-80): the pointer owns the object before the
object is read. -/
def serUniquePtrEnd (cfg : Cfg) (e : Elem T) (r : Residue T) (virt : Option (Virt T)) (s : Ser) (p : Option T) :
    Out (Option T) :=
  (pipeBool cfg s p.isNone).after
    (fun q =>
      if q.1 then .ok none
      else
        (reconstructPointedTo cfg e virt q.2 p).after
          (fun q =>
            match q.1 with
            | none => .ub .nullDeref
            | some t => do
              let t ← pipeEnd cfg e r q.2 t
              .ok (some t))
          (.ok p))
    (.ok p)

/-! ## Objects of classes -/

/-- `_checkpointDynamicSerialize` (derived.h:53-80, base.h:55-69): the parts of the classes, root first. -/
def serChainEnd {P : Type} (cfg : Cfg) (reg : SerReg) (root : Nat) (part : Nat → Elem P) (rpart : Nat → Residue P) :
    List Nat → Ser → List P → Out (List P)
  | [], _, [] => .ok []
  | k :: ks, s, p :: ps =>
    (reg.lookup cfg.ndebug k root s.kind).after
      (fun kind =>
        if kind ≠ s.kind then .ub .typeConfusion
        else
          (pipe cfg (part k) (s.setVdis true) p).after
            (fun q => do
              let qs ← serChainEnd cfg reg root part rpart ks q.2 ps
              .ok (q.1 :: qs))
            (do
              let q ← pipeEnd cfg (part k) (rpart k) (s.setVdis true) p
              .ok (q :: ps)))
      (.ok (p :: ps))
  | _, _, _ => .ub .badRegion

/-- The part of class `c` of an object, in place (dispatch_serializer_nonbyte.h:217-223). -/
def onPartEnd (env : Env) (c : Nat) (g : Ser → List Val → Out (List Val)) (s : Ser) : Val → Out Val
  | .obj d parts =>
    match parts[List.idxOf c (env.chain d)]? with
    | some p => do
      let q ← g s p
      .ok (.obj d (parts.set (List.idxOf c (env.chain d)) q))
    | none => .ub .typeConfusion
  | _ => .ub .typeConfusion

/-- Representations of raw values. -/
def onRawEnd (r : Residue Bytes) : Residue Val := fun s xs =>
  match xs.mapM Val.raw? with
  | some ys => do
    let zs ← r s ys
    .ok (zs.map .raw)
  | none => .ub .typeConfusion

/-- One object through a dispatcher. -/
def oneOf (h : Handler T) (s : Ser) (x : T) : Out (T × Ser) := do
  let (ys, s) ← h s [x]
  match ys with
  | [y] => .ok (y, s)
  | _ => .ub .badRegion

/-- A variant that is not byte-copyable (container/variant_serialize.h:117-121). -/
def variantEnd (cfg : Cfg) (es : List (Elem Val)) (s : Ser) (v : Val) : Out Val := do
  let x : Variant Val ← match v with
    | .variant i x => .ok (.holds i x)
    | .valueless => .ok .valueless
    | _ => .ub .typeConfusion
  let x ← serVariantEnd cfg es s x
  match x with
  | .holds i x => .ok (.variant i x)
  | .valueless => .ok .valueless

/-- The array after `SerializerDispatch` for type `t` (dispatch_serializer_byte.h:66-71,
dispatch_serializer_nonbyte.h:174-234); `h` and `r` belong to the types it contains. -/
def dispatchStepEnd (cfg : Cfg) (env : Env) (h : Ty → Handler Val) (r : Ty → Residue Val) (t : Ty) : Residue Val :=
  let elem (t : Ty) : Elem Val := env.elemOf (h t) t
  let each := dispatchEachEnd (oneOf (dispatchStep cfg env h t))
  match t with
  | .prim _ size => onRawEnd (dispatchByteEnd size)
  | .enm _ pid size | .chrono _ pid size =>
    each fun s v =>
      match v with
      | .raw bs => do
        let bs ← serUnderlyingEnd cfg (primElem env pid size) s bs
        .ok (.raw bs)
      | _ => .ub .typeConfusion
  | .str =>
    each fun s v =>
      match v with
      | .str x => do
        let x ← serStringEnd cfg s x
        .ok (.str x)
      | _ => .ub .typeConfusion
  | .vec t =>
    each fun s v =>
      match v with
      | .vec cap xs => do
        let v ← serVectorEnd cfg (elem t) (r t) s ⟨cap, xs⟩
        .ok (.vec v.cap v.elems)
      | _ => .ub .typeConfusion
  | .vecBool =>
    each fun s v =>
      match v with
      | .vbool cap bs => do
        let v ← serVectorBoolEnd cfg s ⟨cap, bs⟩
        .ok (.vbool v.cap v.elems)
      | _ => .ub .typeConfusion
  | .seq _ t =>
    each fun s v =>
      match v with
      | .coll xs => do
        let xs ← serListEnd cfg (elem t) (r t) s xs
        .ok (.coll xs)
      | _ => .ub .typeConfusion
  | .queue t =>
    each fun s v =>
      match v with
      | .coll xs => do
        let xs ← serGrowEnd cfg (fun acc y => acc ++ [y]) (elem t) s xs
        .ok (.coll xs)
      | _ => .ub .typeConfusion
  | .oset a cmp t =>
    each fun s v =>
      match v with
      | .coll xs => do
        let xs ← serGrowEnd cfg (env.emplaceO a cmp) (elem t) s xs
        .ok (.coll xs)
      | _ => .ub .typeConfusion
  | .uset a eq t =>
    each fun s v =>
      match v with
      | .coll xs => do
        let xs ← serGrowEnd cfg (env.emplaceU a eq) (elem t) s xs
        .ok (.coll xs)
      | _ => .ub .typeConfusion
  | .pair a b =>
    each fun s v =>
      match v with
      | .coll [x, y] => do
        let p ← serPairEnd cfg (elem a) (r a) (elem b) (r b) s (x, y)
        .ok (.coll [p.1, p.2])
      | _ => .ub .typeConfusion
  | .tuple ts =>
    each fun s v =>
      match v with
      | .coll xs => do
        let xs ← visitMembersEnd cfg (ts.map fun t => (elem t, r t)) (cfg.argOrder ts.length) s xs
        .ok (.coll xs)
      | _ => .ub .typeConfusion
  | .opt t =>
    each fun s v =>
      match v with
      | .opt x => do
        let x ← serOptionalEnd cfg (elem t) s x
        .ok (.opt x)
      | _ => .ub .typeConfusion
  | .variant ts =>
    if Ty.allByteCopied ts then onRawEnd (dispatchByteEnd (env.ti (.variant ts)).sizeof)
    else each (variantEnd cfg (ts.map elem))
  | .uptr t =>
    each fun s v =>
      match v with
      | .ptr x => do
        let x ← serUniquePtrEnd cfg (elem t) (r t) (env.virt cfg t) s x
        .ok (.ptr x)
      | _ => .ub .typeConfusion
  | .arr k t =>
    each fun s v =>
      match v with
      | .coll xs =>
        if xs.length = k then do
          let xs ← serializeArrayEnd cfg (elem t) (r t) s xs
          .ok (.coll xs)
        else .ub .typeConfusion
      | _ => .ub .typeConfusion
  | .cls c =>
    let members (k : Nat) (s : Ser) (p : List Val) := serMembers cfg (((env.cls k).visited s).map elem) s p
    let membersEnd (k : Nat) (s : Ser) (p : List Val) :=
      serMembersEnd cfg (((env.cls k).visited s).map fun t => (elem t, r t)) s p
    if (env.cls c).virt then
      fun s xs =>
        if s.vdis then
          dispatchEachEnd (onPart env c (members c)) (onPartEnd env c (membersEnd c)) (s.setVdis false) xs
        else
          match xs with
          | .obj d parts :: rest => do
            let parts ← serChainEnd cfg env.serReg (env.root d)
              (fun k => partElem (env.ti (.cls k))
                (fun s ps => dispatchEach (members k) (s.setVdis false) ps) [])
              (fun k s ps => dispatchEachEnd (members k) (membersEnd k) (s.setVdis false) ps)
              (env.chain d) s parts
            .ok (.obj d parts :: rest)
          | _ => .ub .typeConfusion
    else
      dispatchEachEnd (onPart env c (members c)) (onPartEnd env c (membersEnd c))

/-- The array after `SerializerDispatch` for type `t`; `n` bounds the nesting of the value. -/
def dispatchEnd (cfg : Cfg) (env : Env) : Nat → Ty → Residue Val
  | 0, _ => fun _ _ => .fuel
  | n + 1, t => dispatchStepEnd cfg env (dispatch cfg env n) (dispatchEnd cfg env n) t

/-! ## The calls of the library -/

/-- The object after `deserializeInPlace` (checkpoint_api.impl.h:83-86). -/
def inPlaceEnd (cfg : Cfg) (e : Elem T) (r : Residue T) (mem : Bytes) (y : T) : Out T :=
  traverseTopEnd cfg e r { core := .unpacker mem 0 0, kind := .unpacker } y

/-- The object after `deserializeInPlaceFromStream` (checkpoint_api.impl.h:144-149). -/
def inPlaceFromStreamEnd (cfg : Cfg) (e : Elem T) (r : Residue T) (inp : Bytes) (y : T) : Out T :=
  traverseTopEnd cfg e r { core := .streamUnpacker inp 0, kind := .streamUnpacker } y

/-- The object after `deserializeInPlaceFromFile` (checkpoint_api.impl.h:119-124), which throws before anything else when
the file cannot be opened, inspected or mapped. -/
def inPlaceFromFileEnd (cfg : Cfg) (e : Elem T) (r : Residue T) (F : Faults) (w : World) (file : Nat) (y : T) : Out T :=
  match setupForRead F w file with
  | (none, _) => .ok y
  | (some _, w) => traverseTopEnd cfg e r { core := .unpacker ((w.files file).getD []) 0 0, kind := .unpackerIO } y

end Ckpt
