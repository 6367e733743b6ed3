import Verif.Tests.Basic
import Verif.Model.Pointers
import Verif.Model.Adaptors
import Verif.Model.Program
import Verif.Model.KMap
/-!
# tests/unit/test_footprinter.cc
-/

set_option autoImplicit false

namespace Ckpt.UnitTests

/-- Type information of a type that is not among those of the universe. -/
def other (name sizeof : Nat) : TI := { name := name, idx := encodeIndex name, sizeof := sizeof }

/-- The bytes 0 .. of a number. -/
def zeros (n : Nat) : Val := .raw (List.replicate n 0)

/-- In both builds. -/
def footprint (t : Ty) (x : Val) (expected : Nat) (offset : Nat := 0) : Prop :=
  footprintOf true (the true t) x offset = some expected ∧ footprintOf false (the false t) x offset = some expected

/-- In both builds, for any type. -/
def footprints {T : Type} (e : Bool → Elem T) (x : T) (expected : Nat) : Prop :=
  footprintOf true (e true) x = some expected ∧ footprintOf false (e false) x = some expected

instance (t : Ty) (x : Val) (n k : Nat) : Decidable (footprint t x n k) := by unfold footprint; infer_instance
instance {T : Type} (e : Bool → Elem T) (x : T) (n : Nat) : Decidable (footprints e x n) := by
  unfold footprints; infer_instance

/-- `T*` to an object of type `t`: type information of the pointer and `s | *ptr`. -/
def rawPtr (t : Ty) (x : Val) (check : Bool) : Elem (Option Nat) :=
  pointerElem (other 900 8) fun s a => do
    let (_, s) ← pipe (cfg check) (the check t) s x
    .ok (a, s)

/-- test_fundamental_types (lines 120-150): values. -/
example : footprint int (i 1) (sizeof int) ∧ footprint int (i 1) (sizeof int + 7) 7 ∧
    footprint double (zeros 8) (sizeof double) ∧ footprint double (zeros 8) (sizeof double + 7) 7 := by decide +kernel

/-- test_fundamental_types (lines 132-172): pointers to `char`, null, to `int`, `void*`, to an array of `int`. -/
example : footprints (rawPtr char (.raw [49])) (some 1) (8 + sizeof char) ∧ footprints (rawPtr int (i 0)) none 8 ∧
    footprints (rawPtr int (i 0)) (some 1) (8 + sizeof int) ∧
    footprints (fun _ => handleElem (other 901 8)) () 8 := by decide +kernel

/-- test_array (lines 174-180). -/
example : footprint (.arr 3 int) (.coll [i 1, i 2, i 3]) (3 * sizeof int) := by decide +kernel

/-- test_atomic (lines 182-188), test_function (246-254), test_thread (435-442). -/
example : footprints (fun _ => handleElem (other 902 1)) () (sizeof bool) ∧
    footprints (fun _ => handleElem (other 903 32)) () 32 ∧ footprints (fun _ => handleElem (other 904 8)) () 8 := by
  decide +kernel

/-- test_chrono_duration (lines 190-195), test_enum (224-246). -/
example : footprint (.chrono 1 8 8) (zeros 8) (sizeof (.chrono 1 8 8)) ∧ footprint (.enm 1 1 4) (zeros 4) (sizeof (.enm 1 1 4)) ∧
    footprint (.enm 2 3 1) (.raw [103]) (sizeof char) := by decide +kernel

/-- test_deque (lines 216-222), test_list (258-264). -/
example : footprint (.seq .deque int) (.coll [i 1, i 2, i 3]) (sizeof (.seq .deque int) + 3 * sizeof int) ∧
    footprint (.seq .list int) (.coll [i 1, i 2, i 3]) (sizeof (.seq .list int) + 3 * sizeof int) := by decide +kernel

/-- `std::pair<int, char>`. -/
def intChar : Ty := .pair int char

/-- `{n, c}`. -/
def entry (n c : Nat) : Val := .coll [i n, .raw [UInt8.ofNat c]]

/-- test_map (lines 273-309). -/
example :
    let expected (m : Ty) := sizeof m + 3 * (sizeof intChar + sizeof int + sizeof char)
    footprint (.oset .map 0 intChar) (.coll [entry 1 97, entry 2 98, entry 3 99]) (expected (.oset .map 0 intChar)) ∧
    footprint (.uset .map 0 intChar) (.coll [entry 1 97, entry 2 98, entry 3 99]) (expected (.uset .map 0 intChar)) ∧
    footprint (.oset .multimap 0 intChar) (.coll [entry 1 97, entry 1 98, entry 1 99])
      (expected (.oset .multimap 0 intChar)) ∧
    footprint (.uset .multimap 0 intChar) (.coll [entry 1 97, entry 1 98, entry 1 99])
      (expected (.uset .multimap 0 intChar)) := by decide +kernel

/-- test_map (lines 311-327): `std::unordered_map<int, std::unique_ptr<double>>`. -/
example :
    let p := Ty.pair int (.uptr double)
    let m := Ty.uset .map 0 p
    let one (n : Nat) := Val.coll [i n, .ptr (some (zeros 8))]
    footprint m (.coll [one 1, one 2, one 3])
      (sizeof m + 3 * (sizeof p + sizeof int + sizeof (.uptr double) + sizeof double)) := by decide +kernel

/-- test_shared_ptr (lines 330-343): null, and to a `Test2`. -/
example :
    let e (check : Bool) := pointerElem (other 905 16) fun s a => do
      let (_, s) ← pipe (cfg check) (the check (.cls 7)) s (.obj 7 [[i 0]])
      .ok (a, s)
    footprints e none 16 ∧ footprints e (some 1) (16 + sizeof (.cls 7)) := by decide +kernel

/-- test_queue (lines 345-370), test_stack (409-421): `std::queue`, `std::priority_queue`, `std::stack`. -/
example : footprint (.queue int) (.coll [i 1, i 2, i 3]) (sizeof (.queue int) + 3 * sizeof int) ∧
    footprints (fun check => (CppType.queueLike (other 906 32) true (.base (cfg check) env int)).elem 8) [i 3, i 1, i 2]
      (32 + 3 * sizeof int) ∧
    footprints (fun check => (CppType.queueLike (other 907 80) true (.base (cfg check) env int)).elem 8) [i 1, i 2, i 3]
      (80 + 3 * sizeof int) := by decide +kernel

/-- test_set (lines 372-419). -/
example : footprint (.oset .set 0 int) (.coll [i 1, i 2, i 3]) (sizeof (.oset .set 0 int) + 3 * sizeof int) ∧
    footprint (.uset .set 0 int) (.coll [i 1, i 2, i 3]) (sizeof (.uset .set 0 int) + 3 * sizeof int) ∧
    footprint (.oset .multiset 0 int) (.coll [i 1, i 1, i 1]) (sizeof (.oset .multiset 0 int) + 3 * sizeof int) ∧
    footprint (.uset .multiset 0 int) (.coll [i 1, i 1, i 1]) (sizeof (.uset .multiset 0 int) + 3 * sizeof int) ∧
    footprint (.oset .set 0 (.uptr int)) (.coll [.ptr (some (i 100)), .ptr (some (i 200)), .ptr (some (i 300))])
      (sizeof (.oset .set 0 (.uptr int)) + 3 * (sizeof (.uptr int) + sizeof int)) := by decide +kernel

/-- test_string (lines 424-430): the capacity is that of the small string. -/
example : footprint .str (.str ⟨15, [49, 50, 51, 52, 53, 54, 55, 56, 57]⟩) (sizeof .str + 15 * sizeof char) := by
  decide +kernel

/-- test_tuple (lines 445-454). -/
example : footprint (.tuple [int, double, .str])
    (.coll [i 1, zeros 8, .str ⟨15, [49, 50, 51, 52, 53, 54, 55, 56, 57]⟩])
    (sizeof int + sizeof double + sizeof .str + 15 * sizeof char) := by decide +kernel

/-- `sample_size`. -/
def sampleSize : Nat := 5

/-- `Test1` (lines 64-73): `s | d; s.addBytes(sample_size);`. -/
def test1 (check : Bool) : CppType Val :=
  .program (cfg check) (other 908 8) (zeros 8) (some (zeros 8)) true
    (.visit (.base (cfg check) env double) some (fun x _ => x) (.addBytes (fun _ => sampleSize) .done))

/-- test_unique_ptr (lines 456-477). -/
example :
    let ptr (check : Bool) := (CppType.uniquePtr (cfg check) (other 909 8) (test1 check)).elem 8
    footprints ptr none 8 ∧ footprints ptr (some (zeros 8)) (8 + sizeof double + sampleSize) ∧
    footprint (.uptr (.cls 7)) (.ptr (some (.obj 7 [[i 0]]))) (sizeof (.uptr (.cls 7)) + sizeof (.cls 7)) := by
  decide +kernel

/-- test_vector (lines 479-486): `std::vector<int>`; also with a larger capacity. -/
example : footprint (.vec int) (.vec 5 [i 1, i 2, i 3, i 4, i 5]) (sizeof (.vec int) + 5 * sizeof int) ∧
    footprint (.vec int) (.vec 8 [i 1, i 2, i 3, i 4, i 5]) (sizeof (.vec int) + 8 * sizeof int) := by decide +kernel

/-- test_vector (lines 488-495): `std::vector<Test1*>` with an object and null. -/
example : footprints (fun check => pointerVecElem (cfg check) (other 910 24) (other 900 8) fun s a => do
      let (_, s) ← pipe (cfg check) ((test1 check).elem 8) s (zeros 8)
      .ok (a, s)) ⟨2, [some 1, none]⟩ (24 + 2 * 8 + sizeof double + sampleSize) := by decide +kernel

/-- test_vector (lines 497-503): `std::vector<bool>`. -/
example : footprint .vecBool (.vbool 64 [false, true, false, true, true]) (sizeof .vecBool) := by decide +kernel

/-- test_vector (lines 505-517): `std::vector<TestDerived2>`, empty and with reserved memory. -/
example : footprint (.vec (.cls 9)) (.vec 0 []) (sizeof (.vec (.cls 9))) ∧
    footprint (.vec (.cls 9)) (.vec 3 []) (sizeof (.vec (.cls 9)) + 3 * sizeof (.cls 9)) := by decide +kernel

/-- test_optional_footprint (lines 520-539). -/
example : footprint (.opt bool) (.opt (some (.raw [1]))) (sizeof (.opt bool) + sizeof bool) ∧
    footprint (.opt bool) (.opt none) (sizeof (.opt bool)) ∧
    footprint (.opt llong) (.opt (some (zeros 8))) (sizeof (.opt llong) + sizeof llong) ∧
    footprint (.opt llong) (.opt none) (sizeof (.opt llong)) ∧
    footprint (.opt .str) (.opt (some (.str ⟨15, [57, 57, 57]⟩))) (sizeof (.opt .str) + sizeof .str) ∧
    footprint (.opt .str) (.opt none) (sizeof (.opt .str)) := by decide +kernel

/-- test_ompi (lines 553-589): vectors of handles, here of 9. -/
example : footprints (fun check => (CppType.vector (cfg check) (other 911 24) true
      { ti := other 912 8, apply := fun _ => (handleElem (other 912 8)).apply, fresh := (), dflt := some (),
        copyable := true }).elem 8) ⟨9, List.replicate 9 ()⟩ (24 + 9 * 8) := by decide +kernel

/-- test_kokkos_unordered_map (lines 623-646): a new map, and three entries in a map of 128 slots. -/
example :
    let h : KHash Val Val := { eq := fun a b => key a == key b, place := fun _ _ => none, capacity := id, key0 := i 0 }
    let e (v : Ty) (check : Bool) := kmapElem (cfg check) ⟨other 913 500, other 914 4⟩ h (the check int) (the check v)
    footprints (e int) (.make h 128) (500 + 128 * sizeof int) ∧
    footprints (e long) ⟨[(i 4, some (zeros 8)), (i 5, some (zeros 8)), (i 6, some (zeros 8))] ++
      List.replicate 125 (i 0, none)⟩ (500 + 128 * sizeof int + 3 * sizeof long) := by decide +kernel

end Ckpt.UnitTests
