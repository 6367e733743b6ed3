/-!
# Bytes and fixed-width unsigned integers

The library copies object representations (`memcpy`, `stream.write`).  A byte is `UInt8`;
the object representation of an unsigned integer of `n` bytes depends on the host's byte order,
which is a parameter of the model.
-/

set_option autoImplicit false

namespace Ckpt

/-- One byte; `SerialByteType = char` (src/checkpoint/common.h:127). -/
abbrev Byte := UInt8

/-- A region of memory or a stretch of a stream. -/
abbrev Bytes := List Byte

/-- Byte order of the host (not in the source: C++ leaves it to the platform). -/
inductive Endian
  | little
  | big
  deriving DecidableEq, Repr

/-- Little-endian representation in `n` bytes of `v mod 256^n`. -/
def leBytes : Nat → Nat → Bytes
  | 0, _ => []
  | n + 1, v => UInt8.ofNat (v % 256) :: leBytes n (v / 256)

/-- Value of a little-endian byte sequence. -/
def leVal : Bytes → Nat
  | [] => 0
  | b :: bs => b.toNat + 256 * leVal bs

/-- Object representation of an unsigned integer of `n` bytes on a host with byte order `e`. -/
def intBytes (e : Endian) (n v : Nat) : Bytes :=
  match e with
  | .little => leBytes n v
  | .big => (leBytes n v).reverse

/-- Value of the unsigned integer stored in `bs` on a host with byte order `e`. -/
def intVal (e : Endian) (bs : Bytes) : Nat :=
  match e with
  | .little => leVal bs
  | .big => leVal bs.reverse

/-- `2^64`: `SerialSizeType = size_t` arithmetic is modulo this (src/checkpoint/common.h:126). -/
def sizeMod : Nat := 2 ^ 64

/-- Split a region into `k` consecutive objects of `size` bytes each. -/
def chunks (size : Nat) : Nat → Bytes → List Bytes
  | 0, _ => []
  | k + 1, bs => bs.take size :: chunks size k (bs.drop size)

end Ckpt
