import Verif.Tests.Basic
/-!
# tests/unit/test_sizer.cc
-/

set_option autoImplicit false

namespace Ckpt.UnitTests

/-- `sizeof(DecodedIndex) + sizeof(SerialSizeType)` (dispatch/type_registry.h:54, common.h:57). -/
def overhead : Nat := 4 + 8

/-- test_sizer_1 (lines 63-84). -/
example : getSizeOf true (.cls 1) (.obj 1 [[i 0]]) = some (sizeof int + 2 * overhead) ∧
    getSizeOf false (.cls 1) (.obj 1 [[i 0]]) = some (sizeof int + overhead) := by decide +kernel

/-- test_sizer_2 (lines 95-117). -/
example : getSizeOf true (.cls 2) (.obj 2 [[i 0, i 0]]) = some (2 * sizeof int + 3 * overhead) ∧
    getSizeOf false (.cls 2) (.obj 2 [[i 0, i 0]]) = some (2 * sizeof int + overhead) := by decide +kernel

/-- test_sizer_3 (lines 128-151). -/
example : getSizeOf true (.cls 3) (.obj 3 [[i 0, i 0, i 0]]) = some (3 * sizeof int + 4 * overhead) ∧
    getSizeOf false (.cls 3) (.obj 3 [[i 0, i 0, i 0]]) = some (3 * sizeof int + overhead) := by decide +kernel

/-- test_sizer_4 (lines 162-186). -/
example : getSizeOf true (.cls 4) (.obj 4 [[i 0, i 0, i 0, i 0]]) = some (4 * sizeof int + 5 * overhead) ∧
    getSizeOf false (.cls 4) (.obj 4 [[i 0, i 0, i 0, i 0]]) = some (4 * sizeof int + overhead) := by decide +kernel

/-- test_sizer_5 (lines 198-221). -/
example :
    let t := Val.obj 5 [[i 0, .coll [.raw [0], .raw [0], .raw [0]]]]
    getSizeOf true (.cls 5) t = some (sizeof int + 3 * sizeof char + 4 * overhead) ∧
    getSizeOf false (.cls 5) t = some (sizeof int + 3 * sizeof char + overhead) := by decide +kernel

/-- test_sizer_6 (lines 233-262). -/
example :
    let t := Val.obj 6 [[.raw (List.replicate 8 0), .vec 7 (List.replicate 7 (i 0))]]
    getSizeOf true (.cls 6) t = some (sizeof double + sizeof size + sizeof size + 7 * sizeof float + 6 * overhead) ∧
    getSizeOf false (.cls 6) t = some (sizeof double + sizeof size + sizeof size + 7 * sizeof float + overhead) := by
  decide +kernel

end Ckpt.UnitTests
