import Verif.Model.Api
/-!
# Serialize functions that do different things with different serializers

As far as writing is concerned a user's serialize function is a sequence of calls of `contiguousBytes`
(every `s | member` ends in such calls), which may depend on the class of the serializer it is given, for
example through `s.isSizing()`.
-/

set_option autoImplicit false

namespace Ckpt

/-- The regions a serialize function hands to a serializer of each class. -/
abbrev Script := Kind → List Bytes

/-- Number of bytes handed over. -/
def Script.total (f : Script) (k : Kind) : Nat := ((f k).map List.length).sum

/-- Handing over regions one after the other. -/
def handOver : List Bytes → Ser → Out Ser
  | [], s => .ok s
  | b :: bs, s => do
    let (_, s) ← s.contiguousBytes 1 b.length b
    handOver bs s

/-- A class with that serialize function. -/
def Script.elem (f : Script) (ti : TI) : Elem Unit where
  ti := ti
  apply := fun s xs => do
    let s ← handOver (f s.kind) s
    .ok (xs, s)
  fresh := ()
  dflt := some ()
  copyable := true

end Ckpt
