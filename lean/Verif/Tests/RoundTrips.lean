import Verif.Tests.Basic
import Verif.Model.Custom
/-!
# test_container.cc, test_tuple.cc, test_optional.cc, test_variant_serializer.cc, test_unique_ptr.cc,
test_vector_serializer.cc, test_vector_bool_serialize.cc, test_traversal.cc
-/

set_option autoImplicit false

namespace Ckpt.UnitTests

/-- A number of the given size. -/
def num (size n : Nat) : Val := .raw (intBytes .little size n)

/-- The numbers 1 to 5. -/
def oneToFive (size : Nat) : List Val := [1, 2, 3, 4, 5].map (num size)

/-- `testEqualityContainerOrdered` (test_container.cc:64-73) of a container and what is read from its checkpoint, in both
builds. -/
def ordered (t : Ty) (x : Val) : Bool := restored true t x && restored false t x

/-- `testEqualityContainerUnordered` (test_container.cc:75-87), in both builds. -/
def unordered (t : Ty) (xs : List Val) : Bool :=
  let found (check : Bool) : Bool := match readAs check (the check t) (.coll xs) (the check t) with
    | .ok (.coll ys) => xs.length == ys.length && xs.all fun x => ys.any fun y => same x y
    | _ => false
  found true && found false

/-- test_container.cc, test_single_ordered_container (lines 130-142). -/
example : ordered (.vec int) (.vec 0 []) ∧ ordered (.seq .list int) (.coll []) ∧ ordered (.seq .deque int) (.coll []) ∧
    ordered (.oset .set 0 int) (.coll []) ∧ ordered (.oset .multiset 0 int) (.coll []) ∧ ordered (.queue int) (.coll []) := by
  decide +kernel
example : ordered (.vec int) (.vec 1000 (oneToFive 4)) ∧ ordered (.seq .list int) (.coll (oneToFive 4)) ∧
    ordered (.seq .deque int) (.coll (oneToFive 4)) ∧ ordered (.oset .set 0 int) (.coll (oneToFive 4)) ∧
    ordered (.oset .multiset 0 int) (.coll (oneToFive 4)) ∧ ordered (.queue int) (.coll (oneToFive 4)) := by decide +kernel
example : ordered (.vec long) (.vec 1000 (oneToFive 8)) ∧ ordered (.seq .list long) (.coll (oneToFive 8)) ∧
    ordered (.oset .set 0 (.prim 9 2)) (.coll (oneToFive 2)) ∧ ordered (.queue (.prim 9 2)) (.coll (oneToFive 2)) := by
  decide +kernel

/-- test_container.cc, test_single_unordered_container (lines 144-156). -/
example : unordered (.uset .set 0 int) [] ∧ unordered (.uset .multiset 0 int) [] ∧
    unordered (.uset .set 0 int) (oneToFive 4) ∧ unordered (.uset .multiset 0 int) (oneToFive 4) := by decide +kernel

/-- `EXPECT_GE(t1->capacity(), reserved_capacity)` (test_container.cc:100-119). -/
def keepsCapacity (check : Bool) : Bool :=
  match readAs check (the check (.vec int)) (.vec 1000 (oneToFive 4)) (the check (.vec int)) with
  | .ok (.vec cap xs) => decide (1000 ≤ cap) && xs.length == 5
  | _ => false

/-- test_container.cc (lines 100-119). -/
example : keepsCapacity true ∧ keepsCapacity false := by decide +kernel

/-- The entries 1 to 9 of test_container.cc (lines 236-242). -/
def entries : List Val := [(1, 2), (3, 4), (5, 6), (7, 8), (9, 10)].map fun p => .coll [i p.1, i p.2]

/-- test_container.cc, test_multi_container and test_multi_container_unordered (lines 228-262). -/
example : ordered (.oset .map 0 (.pair int int)) (.coll []) ∧ ordered (.oset .multimap 0 (.pair int int)) (.coll []) ∧
    unordered (.uset .map 0 (.pair int int)) [] ∧ unordered (.uset .multimap 0 (.pair int int)) [] := by decide +kernel
example : ordered (.oset .map 0 (.pair int int)) (.coll entries) ∧
    ordered (.oset .multimap 0 (.pair int int)) (.coll entries) := by decide +kernel
example : unordered (.uset .map 0 (.pair int int)) entries ∧ unordered (.uset .multimap 0 (.pair int int)) entries := by
  decide +kernel

/-- `testTupleSerialization` (test_tuple.cc:129-155). -/
def tupleTest (check : Bool) (t : Ty) (x : Val) (n : Nat) : Bool :=
  let before := Val.coll [x, i n]
  restored check (.tuple [t, int]) before &&
  match savedSize check t x, savedSize check (.tuple [int]) (.coll [i n]), savedSize check (.tuple [t, int]) before with
  | some first, some second, some whole => first + (if check then second else sizeof (.tuple [int])) == whole
  | _, _, _ => false

/-- test_tuple_simple_types (test_tuple.cc:157-163). -/
example : ∀ check, tupleTest check int (i 123) 0 ∧ tupleTest check (.prim 9 1) (num 1 1) 2 ∧
    tupleTest check long (num 8 3) 4 ∧ tupleTest check double (num 8 1) 2 ∧ tupleTest check float (num 4 3) 4 := by
  decide +kernel

/-- Size of a `Derived` (test_tuple.cc:170-182). -/
def derivedSize (check : Bool) : Bool :=
  match savedSize check int (i 4), savedSize check (.cls 33) (.obj 33 [[i 12345]]),
      savedSize check (.cls 31) (.obj 31 [[]]) with
  | some n, some derived, some base => if check then base + n == derived else n == derived
  | _, _, _ => false

/-- test_tuple_empty_base_optimization (test_tuple.cc:165-190). -/
example : derivedSize true ∧ derivedSize false ∧ ∀ check,
    tupleTest check (.cls 31) (.obj 31 [[]]) 0 ∧ tupleTest check (.cls 32) (.obj 32 [[]]) 0 ∧
    tupleTest check (.cls 33) (.obj 33 [[i 1]]) 1 ∧ tupleTest check (.cls 34) (.obj 34 [[.obj 31 [[]], i 3]]) 2 ∧
    tupleTest check (.cls 35) (.obj 35 [[.obj 33 [[i 1]], i 5]]) 3 ∧
    tupleTest check (.cls 36) (.obj 36 [[.obj 35 [[.obj 33 [[i 1]], i 1]], i 7]]) 4 := by decide +kernel

/-- test_optional (test_optional.cc:55-90). -/
example : ∀ check, ∀ t ∈ [(bool, num 1 1), (.prim 9 1, num 1 1), (.prim 9 2, num 2 2), (int, i 3), (llong, num 8 4),
      (float, num 4 5), (double, num 8 6), (.str, Val.str ⟨15, [55]⟩)],
    restored check (.opt t.1) (.opt (some t.2)) ∧ restored check (.opt t.1) (.opt none) := by decide +kernel

/-- test_variant_basic, test_variant_basic_string, test_variant_no_default_construct, test_variant_no_copy_construct
(test_variant_serializer.cc:55-140); the first is copied as bytes. -/
example : ∀ check, restored check (.variant [int, double]) (.raw (List.replicate 16 10)) ∧
    restored check (.variant [int, double, .str]) (.variant 2 (.str ⟨15, [116, 101, 115, 116]⟩)) ∧
    restored check (.variant [int, double, .cls 33, .str]) (.variant 2 (.obj 33 [[i 10]])) := by decide +kernel

/-- `static_assert`s of test_variant_serializer.cc (lines 59-62, 75-78). -/
example : Ty.allByteCopied [int, double] ∧ !Ty.allByteCopied [int, double, .str] := by decide +kernel

/-- `UserObject1` with its own `UserObject2` (test_unique_ptr.cc:60-113). -/
def userObject (x : Nat) (vec : List Val) (third : Option Val) : Val :=
  .obj 40 [[i 37, .ptr (some (.obj 39 [[i x, i 31, .vec 1 vec]])), .ptr none, .ptr third]]

/-- Reading in place over another object (test_unique_ptr.cc:126-131). -/
def readsOver (check : Bool) : Bool :=
  match save check (the check (.cls 40)) (userObject 29 [i 41] none) with
  | .ok b =>
    match deserializeInPlace (cfg check) (the check (.cls 40)) b (userObject 1 [] (some (clsFresh 39))) with
    | .ok (u, _) => same u (userObject 29 [i 41] none)
    | _ => false
  | _ => false

/-- test_unique_ptr_1 (test_unique_ptr.cc:119-132). -/
example : ordered (.cls 40) (userObject 29 [i 41] none) ∧ readsOver true ∧ readsOver false := by decide +kernel

/-- test_vector_default_ctor and the others of test_vector_serializer.cc: what the constructor stores is not kept. -/
example : ∀ check, restored check (.vec (.cls 33)) (.vec 3 [.obj 33 [[i 101]], .obj 33 [[i 101]], .obj 33 [[i 101]]]) := by
  decide +kernel

/-- test_bool_vector (test_vector_bool_serialize.cc:70-87). -/
example : ∀ check, ∀ v ∈ [[], [false], [true], [false, false], [false, true], [true, false], [true, true],
    [false, true, false, false, true]], restored check .vecBool (.vbool 64 v) := by decide +kernel

/-- `TestObject` (test_traversal.cc:72-101). -/
def testObject : Val :=
  .obj 38 [[i 29, i 36, .vec 16 ((List.range 10).map i), .vec 16 ((List.range 10).map fun n => num 8 (n * 2934)),
    .obj 37 [[.vec 100 (List.replicate 100 (num 4 0))]]]]

/-- Bytes a traverser in mode `None` is given (test_traversal.cc:103-112). -/
def traversed (check : Bool) : Option Nat :=
  match traverseCustom (cfg check) (the check (.cls 38)) testObject with
  | .ok (bytes, _) => some bytes.length
  | _ => none

/-- test_traversal (test_traversal.cc:155-169). -/
example : ∀ check, traversed check = some (10 * sizeof int + 10 * sizeof double + sizeof int + sizeof int +
    100 * sizeof float + 2 * 3 * sizeof size) := by decide +kernel

end Ckpt.UnitTests
