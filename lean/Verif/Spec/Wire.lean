import Verif.Model.Dispatch
/-!
# Specification: wire format of one traversal node

Independent description of the bytes around a payload.  `w` says whether headers are written at
every node (error checking build, packing or sizing serializer).
-/

set_option autoImplicit false

namespace Ckpt

/-- A node of type `ti` with `len` objects whose own encoding is `payload`: without headers just the
payload; with headers the 4-byte type index before it and the 8-byte memory size after it. -/
def node (cfg : Cfg) (w : Bool) (ti : TI) (len : Nat) (payload : Bytes) : Bytes :=
  if w then
    intBytes cfg.endian 4 ti.idx ++ payload ++ intBytes cfg.endian 8 (ti.sizeof * len % 2 ^ 64)
  else payload

/-- A type index as `Registrar` makes them: it fits in 32 bits and carries the dead mark. -/
def TI.Valid (ti : TI) : Prop := ti.idx < 2 ^ 32 ∧ validateIndex ti.idx = true

/-- The fundamental types have valid type indices and their ABI sizes. -/
structure Cfg.Valid (cfg : Cfg) : Prop where
  size : cfg.tiSize.Valid
  bool : cfg.tiBool.Valid
  char : cfg.tiChar.Valid
  int : cfg.tiInt.Valid
  /-- `vector::reserve(n)` provides at least `n`. -/
  grow : ∀ n, n ≤ cfg.grow n
  /-- capacities are of type `size_t`. -/
  fits : ∀ n < 2 ^ 64, cfg.grow n < 2 ^ 64

/-- A `size_t` inside an object. -/
def sizeNode (cfg : Cfg) (w : Bool) (n : Nat) : Bytes :=
  node cfg w cfg.tiSize 1 (intBytes cfg.endian 8 n)

/-- A `bool` inside an object. -/
def boolNode (cfg : Cfg) (w : Bool) (b : Bool) : Bytes :=
  node cfg w cfg.tiBool 1 [if b then 1 else 0]

end Ckpt
