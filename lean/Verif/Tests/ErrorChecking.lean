import Verif.Tests.Basic
/-!
# tests/unit/test_serialization_error_checking.cc
-/

set_option autoImplicit false

namespace Ckpt.UnitTests

/-- test_serialization_error_checking (lines 108-115), in both builds. -/
example : ∀ check,
    noThrow (readAs check (the check (.cls 15)) (clsFresh 15) (the check (.cls 15))) ∧
    throwsSerializationError (readAs check (the check (.cls 15)) (clsFresh 15) (the check (.cls 14))) := by decide +kernel

/-- test_serialization_error_checking_polymorphic (lines 141-158), in both builds. -/
example : ∀ check,
    let ptr := Val.ptr (some (clsFresh 17))
    let read (t : Ty) := readAs check (the check (.uptr (.cls 16))) ptr (the check t)
    noThrow (read (.uptr (.cls 16))) ∧ throwsSerializationError (read (.uptr (.cls 17))) ∧
    throwsSerializationError (read (.cls 16)) ∧ throwsSerializationError (read (.cls 17)) := by decide +kernel

/-- `WrongMemUsagePackingTooFew` (lines 170-182). -/
def packingTooFew (check : Bool) : Elem (Val × Val) where
  ti := { name := 920, idx := encodeIndex 920, sizeof := 16 }
  fresh := (fresh size, fresh size)
  dflt := none
  copyable := true
  apply := dispatchEach fun s x => do
    let (a, s) ← pipe (cfg check) (the check size) s x.1
    if s.isPacking then .ok ((a, x.2), s)
    else do
      let (b, s) ← pipe (cfg check) (the check size) s x.2
      .ok ((a, b), s)

/-- The members visited when writing: `WrongMemUsageUnpackingTooFew` (lines 184-196), `A` in `B` in
`WrongMemUsageNestedStructs` (lines 198-225). -/
def saved : Nat → Val
  | 19 => .obj 19 [[.raw [123, 0, 0, 0, 0, 0, 0, 0], .raw [200, 1, 0, 0, 0, 0, 0, 0]]]
  | 22 => .obj 22 [[.obj 21 [[.raw [3, 0, 0, 0, 0, 0, 0, 0], .raw [4, 0, 0, 0, 0, 0, 0, 0],
      .obj 20 [[.raw [1], .raw [0, 0, 0, 0, 0, 0, 0, 0x40]]]]]]]
  | c => clsFresh c

/-- test_serialization_error_checking_memory_usage (lines 227-261). -/
example :
    let read (t : Nat) := readAs true (the true (.cls t)) (saved t) (the true (.cls t))
    noThrow (save true (the true (.cls 18)) (saved 18)) ∧ noThrow (read 18) ∧
    throwsSerializationError (save true (packingTooFew true) (fresh size, fresh size)) ∧
    noThrow (save true (the true (.cls 19)) (saved 19)) ∧ throwsSerializationError (read 19) ∧
    noThrow (save true (the true (.cls 22)) (saved 22)) ∧ throwsSerializationError (read 22) := by decide +kernel

/-- The same in a build without error checking: there, too, the exceptions are thrown. -/
example :
    let read (t : Nat) := readAs false (the false (.cls t)) (saved t) (the false (.cls t))
    noThrow (save false (the false (.cls 18)) (saved 18)) ∧ noThrow (read 18) ∧
    throwsSerializationError (save false (packingTooFew false) (fresh size, fresh size)) ∧
    noThrow (save false (the false (.cls 19)) (saved 19)) ∧ throwsSerializationError (read 19) ∧
    noThrow (save false (the false (.cls 22)) (saved 22)) ∧ throwsSerializationError (read 22) := by decide +kernel

end Ckpt.UnitTests
