import Verif.Tests.RoundTrips
/-!
# test_virtual_serialize.cc
-/

set_option autoImplicit false

namespace Ckpt.UnitTests

/-- test_virtual_serialize_templated (test_virtual_serialize.cc:650-656). -/
example : ∀ check, restored check (.uptr (.cls 41)) (.ptr (some (.obj 43 [[], [], [.ptr none]]))) := by decide +kernel

/-- test_virtual_serialize_raw (test_virtual_serialize.cc:686-694): a pointer to `HolderObjBase<int>`, here owned by a
`std::unique_ptr`, whose function is that of the test. -/
example : ∀ check, restored check (.uptr (.cls 42)) (.ptr (some (.obj 43 [[], [], [.ptr (some (i 10))]]))) := by
  decide +kernel

/-- The objects of `test_1` (test_virtual_serialize.cc:68-160), with `num_ints = 2`. -/
def object1 (which : Nat) : Val :=
  let ints := Val.vec 4 [i 0, i 29]
  if which = 0 then .obj 45 [[ints], [.coll [.coll [i 0, i 0], .coll [i 1, i 29]], num 8 29, .ptr (some (i 139))]]
  else .obj 46 [[ints], [.coll [i 0, i 1]]]

/-- `restored`, with the entries of an unordered map in another order. -/
def restoredMap (check : Bool) : Bool :=
  match readAs check (the check (.uptr (.cls 44))) (.ptr (some (object1 0))) (the check (.uptr (.cls 44))) with
  | .ok (.ptr (some (.obj 45 [[v], [.coll [a, b], x, p]]))) =>
    same v (.vec 4 [i 0, i 29]) && same x (num 8 29) && same p (.ptr (some (i 139))) &&
      (same a (.coll [i 0, i 0]) && same b (.coll [i 1, i 29]) || same b (.coll [i 0, i 0]) && same a (.coll [i 1, i 29]))
  | _ => false

/-- test_virtual_serialize with objects of `test_1::TestWrapper` (test_virtual_serialize.cc:165-202, 585-595). -/
example : restoredMap true := by decide +kernel
example : restoredMap false := by decide +kernel
example : ∀ check, restored check (.vec (.uptr (.cls 44))) (.vec 2 [.ptr (some (object1 1))]) := by decide +kernel

/-- The objects of `test_2` (test_virtual_serialize.cc:213-332). -/
def object2 (which : Nat) : Val :=
  if which = 0 then .obj 48 [[i 29], [num 8 29, .ptr (some (i 139))]]
  else if which = 1 then .obj 49 [[i 29], [.coll [i 0, i 1, i 2]]]
  else .obj 50 [[i 29], [.coll [i 0, i 1, i 2]], [num 8 34]]

/-- test_virtual_serialize with the objects of `test_2::TestWrapper` (test_virtual_serialize.cc:334-408). -/
example : ∀ check,
    restored check (.vec (.uptr (.cls 47))) (.vec 3 [.ptr (some (object2 0)), .ptr (some (object2 1)), .ptr (some (object2 2))]) ∧
    restored check (.vec (.uptr (.cls 49))) (.vec 1 [.ptr (some (object2 2))]) := by decide +kernel

/-- test_virtual_serialize with an object of `test_3::TestWrapper` (test_virtual_serialize.cc:420-575). -/
example : ∀ check, restored check (.uptr (.cls 51)) (.ptr (some (.obj 53 [[i 29], [.vec 1 [.ptr (some (object2 0))]]]))) := by
  decide +kernel

end Ckpt.UnitTests
