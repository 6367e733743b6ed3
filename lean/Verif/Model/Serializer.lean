import Verif.Model.Bytes
import Verif.Model.Outcome
/-!
# Serializer objects

The serializer classes of src/checkpoint/serializers as one state type.
-/

set_option autoImplicit false

namespace Ckpt

/-- `eSerializationMode` (serializers/base_serializer.h:54-61); `Invalid` is never set. -/
inductive Mode
  | none | unpacking | packing | sizing | footprinting
  deriving DecidableEq, Repr

/-- State of a serializer object, one constructor per class.
Pointers are offsets into the memory they point to. -/
inductive Core
  /-- `Sizer` (serializers/sizer.h, sizer.cc:50-58): `num_bytes`. -/
  | sizer (numBytes : Nat)
  /-- `PackerBuffer` (serializers/packer.impl.h): the memory behind `start_` that may be written,
  `cur_ - start_`, and `usedSize_`. -/
  | packer (mem : Bytes) (cur used : Nat)
  /-- `UnpackerBuffer` (serializers/unpacker.impl.h): the readable memory behind `start_`,
  `cur_ - start_`, `usedSize_`. -/
  | unpacker (mem : Bytes) (cur used : Nat)
  /-- `StreamPacker` (serializers/stream_serializer.h:54-74): what the medium behind the stream has
  received, how many bytes it can hold in total (`none`: unlimited; a full medium puts the stream
  in a failed state and drops the rest), and `n_bytes`. -/
  | streamPacker (out : Bytes) (limit : Option Nat) (nBytes : Nat)
  /-- `StreamUnpacker` (serializers/stream_serializer.h:76-95): unread input, `n_bytes`. -/
  | streamUnpacker (inp : Bytes) (nBytes : Nat)
  /-- `Footprinter` (serializers/footprinter.h:52-73): `num_bytes_`. -/
  | footprinter (numBytes : Nat)
  /-- A user-defined traverser in mode `None` that records the bytes it is shown
  (tests/unit/test_traversal.cc `TestTraverse` counts them). -/
  | traverser (seen : Bytes)
  deriving DecidableEq, Repr

/-- The concrete serializer classes the virtual registry distinguishes
(serializers/serializers_headers.h:55-64, `checkpoint_serializer_variadic_args`), plus one
for user-defined traversers. -/
inductive Kind
  | footprinter | packer | packerUserBuf | packerIO | unpacker | unpackerIO | sizer
  | streamPacker | streamUnpacker | custom
  deriving DecidableEq, Repr

/-- A serializer object: class, class-specific state, `virtual_disabled_`
(serializers/base_serializer.h:197-213). -/
structure Ser where
  core : Core
  kind : Kind
  vdis : Bool := false
  deriving DecidableEq, Repr

namespace Ser

/-- `getMode()` (serializers/base_serializer.h:93); each class passes its mode to
`BaseSerializer`: sizer.h, packer.impl.h:59, unpacker.impl.h:58, stream_serializer.h:57,79,
footprinter.h:53. -/
def mode (s : Ser) : Mode :=
  match s.core with
  | .sizer _ => .sizing
  | .packer .. => .packing
  | .unpacker .. => .unpacking
  | .streamPacker .. => .packing
  | .streamUnpacker .. => .unpacking
  | .footprinter _ => .footprinting
  | .traverser _ => .none

/-- base_serializer.h:100. -/
def isSizing (s : Ser) : Bool := s.mode == .sizing
/-- base_serializer.h:107. -/
def isPacking (s : Ser) : Bool := s.mode == .packing
/-- base_serializer.h:114. -/
def isUnpacking (s : Ser) : Bool := s.mode == .unpacking
/-- base_serializer.h:121. -/
def isFootprinting (s : Ser) : Bool := s.mode == .footprinting

/-- `setVirtualDisabled` (base_serializer.h:208). -/
def setVdis (s : Ser) (b : Bool) : Ser := { s with vdis := b }

/-- `countBytes` / `addBytes`: count only in the `Footprinter` (footprinter.h:63-70), no-ops in
`BaseSerializer` (base_serializer.h:128-136). -/
def addBytes (s : Ser) (n : Nat) : Ser :=
  match s.core with
  | .footprinter k => { s with core := .footprinter ((k + n) % sizeMod) }
  | _ => s

/-- `contiguousBytes(ptr, size, num)` of every serializer class; `data` is the memory at `ptr`
before the call, the returned bytes are that memory after the call.

* `Sizer`: sizer.cc:50-58.
* `PackerBuffer`: packer.impl.h:112-133; `getSpotIncrement` (memory_serializer.h:68-72) performs no
  bounds check, so writing past the memory is undefined behaviour.
* `UnpackerBuffer`: unpacker.impl.h:83-98, same.
* `StreamPacker`: stream_serializer.h:61-64; the result of `write` is not checked.
* `StreamUnpacker`: stream_serializer.h:82-87.
* `Footprinter`: footprinter.h:59-61.

Reading or writing a region of another size than the object at `ptr` is undefined behaviour
(`badRegion`).  Simplified: `size * num` is not reduced modulo 2^64 before the copy (no object is
that large); the byte counters are. -/
def contiguousBytes (s : Ser) (size num : Nat) (data : Bytes) : Out (Bytes × Ser) :=
  let len := size * num
  match s.core with
  | .sizer n => .ok (data, { s with core := .sizer ((n + len) % sizeMod) })
  | .footprinter n => .ok (data, { s with core := .footprinter ((n + len) % sizeMod) })
  | .packer mem cur used =>
    if data.length ≠ len then .ub .badRegion
    else if cur + len ≤ mem.length then
      .ok (data,
        { s with core := .packer (mem.take cur ++ data ++ mem.drop (cur + len)) (cur + len) (used + len) })
    else .ub .packOverflow
  | .unpacker mem cur used =>
    if data.length ≠ len then .ub .badRegion
    else if cur + len ≤ mem.length then
      .ok ((mem.drop cur).take len, { s with core := .unpacker mem (cur + len) (used + len) })
    else .ub .readOverflow
  | .streamPacker out limit n =>
    if data.length ≠ len then .ub .badRegion
    else
      let all := out ++ data
      .ok (data, { s with core := .streamPacker (match limit with | none => all | some l => all.take l)
                                    limit (n + len) })
  | .streamUnpacker inp n =>
    if data.length ≠ len then .ub .badRegion
    else if len ≤ inp.length then
      .ok (inp.take len, { s with core := .streamUnpacker (inp.drop len) (n + len) })
    else .throw .streamShort
  | .traverser seen =>
    if data.length ≠ len then .ub .badRegion
    else .ok (data, { s with core := .traverser (seen ++ data) })

end Ser
end Ckpt
