import Verif.Model.Api
import Verif.Model.Universe
/-!
# The program of the project's unit tests

The tests in /repo/tests/unit state what the library is expected to do.  In the modules of this directory they are run on
the model: the objects are those of the tests, the expected results are written as in the tests.  This shows that the
model gives the results its authors expect of the library; nothing is proved from it.

Sizes are those of a 64-bit platform with libstdc++.
-/

set_option autoImplicit false

namespace Ckpt.UnitTests

/-- `int`. -/
def int : Ty := .prim 1 4
/-- `double`. -/
def double : Ty := .prim 2 8
/-- `char`. -/
def char : Ty := .prim 3 1
/-- `float`. -/
def float : Ty := .prim 4 4
/-- `bool`. -/
def bool : Ty := .prim 5 1
/-- `std::size_t`. -/
def size : Ty := .prim 6 8
/-- `long long`. -/
def llong : Ty := .prim 7 8
/-- `long`. -/
def long : Ty := .prim 8 8

/-- `(x + a - 1) / a * a`. -/
def roundUp (x a : Nat) : Nat := (x + a - 1) / a * a

/-- `{sizeof, alignof}` of the classes in the tests. -/
def clsLayout : Nat → Nat × Nat
  -- test_sizer.cc
  | 1 => (4, 4) | 2 => (8, 4) | 3 => (12, 4) | 4 => (16, 4) | 5 => (8, 4) | 6 => (32, 8)
  -- test_footprinter.cc: `Test2`, `TestBase`, `TestDerived2`
  | 7 => (4, 4) | 8 => (16, 8) | 9 => (40, 8)
  -- test_serialization_error_checking.cc: `AA` .. `EE`, `Base`, `Derived`, `CorrectMemUsage`,
  -- `WrongMemUsageUnpackingTooFew`, `A`, `B`, `WrongMemUsageNestedStructs`
  | 11 => (4, 4) | 12 => (16, 8) | 13 => (24, 8) | 14 => (32, 8) | 15 => (40, 8) | 16 => (16, 8) | 17 => (16, 8)
  | 18 => (16, 8) | 19 => (16, 8) | 20 => (16, 8) | 21 => (32, 8) | 22 => (32, 8)
  -- test_tuple.cc: `Base`, `DerivedEmpty`, `Derived` .. `Derived4`
  | 31 => (1, 1) | 32 => (1, 1) | 33 => (4, 4) | 34 => (8, 4) | 35 => (12, 4) | 36 => (20, 4)
  -- test_traversal.cc: `TestObject2`, `TestObject`
  | 37 => (24, 8) | 38 => (80, 8)
  -- test_unique_ptr.cc: `UserObject2`, `UserObject1`
  | 39 => (32, 8) | 40 => (32, 8)
  -- test_virtual_serialize.cc: `HolderBase`, `HolderObjBase<int>`, `HolderBasic<int>`
  | 41 => (8, 8) | 42 => (8, 8) | 43 => (16, 8)
  -- `test_1::TestBase`, `TestDerived1`, `TestDerived2`
  | 44 => (32, 8) | 45 => (104, 8) | 46 => (80, 8)
  -- `test_2::TestBase`, `TestDerived1`, `TestDerived2`, `TestDerived3`
  | 47 => (16, 8) | 48 => (32, 8) | 49 => (64, 8) | 50 => (72, 8)
  -- `test_3::TestBase`, `TestDerived1`, `TestDerived2`
  | 51 => (16, 8) | 52 => (40, 8) | 53 => (40, 8)
  | _ => (1, 1)

mutual
/-- `{sizeof, alignof}`. -/
def layout : Ty → Nat × Nat
  | .prim _ n | .enm _ _ n | .chrono _ _ n => (n, max n 1)
  | .str => (32, 8)
  | .vec _ => (24, 8)
  | .vecBool => (40, 8)
  | .seq .list _ => (24, 8)
  | .seq .deque _ | .queue _ => (80, 8)
  | .oset _ _ _ => (48, 8)
  | .uset _ _ _ => (56, 8)
  | .pair a b =>
    let a := layout a
    let b := layout b
    (roundUp (roundUp a.1 b.2 + b.1) (max a.2 b.2), max a.2 b.2)
  | .tuple ts =>
    let r := layouts ts
    (roundUp r.1 r.2.2, r.2.2)
  | .opt t =>
    let t := layout t
    (roundUp (t.1 + 1) t.2, t.2)
  | .variant ts =>
    let r := layouts ts
    (roundUp (r.2.1 + 1) r.2.2, r.2.2)
  | .uptr _ => (8, 8)
  | .arr k t => (k * (layout t).1, (layout t).2)
  | .cls c => clsLayout c

/-- Size of the types one after the other, the largest size, the largest alignment. -/
def layouts : List Ty → Nat × Nat × Nat
  | [] => (0, 0, 1)
  | t :: ts =>
    let r := layouts ts
    let t := layout t
    (roundUp r.1 t.2 + t.1, max t.1 r.2.1, max t.2 r.2.2)
end

mutual
/-- A number for each type, as the type registry gives one. -/
def code : Ty → Nat
  | .prim i _ => i
  | .enm i _ _ => 10 + i
  | .chrono i _ _ => 20 + i
  | .str => 30
  | .vecBool => 31
  | .cls c => 100 + c
  | .vec t => (7 * code t + 301) % 65521
  | .seq .list t => (7 * code t + 1303) % 65521
  | .seq .deque t => (7 * code t + 2305) % 65521
  | .queue t => (7 * code t + 3306) % 65521
  | .oset _ _ t => (7 * code t + 5307) % 65521
  | .uset _ _ t => (7 * code t + 7311) % 65521
  | .pair a b => (11 * code a + 17 * code b + 9302) % 65521
  | .tuple ts => (13 * codes ts + 12304) % 65521
  | .opt t => (7 * code t + 15310) % 65521
  | .variant ts => (13 * codes ts + 18313) % 65521
  | .uptr t => (7 * code t + 21317) % 65521
  | .arr k t => (7 * code t + 31 * k + 24319) % 65521
/-- The same for several types. -/
def codes : List Ty → Nat
  | [] => 1
  | t :: ts => (code t + 19 * codes ts) % 65521
end

/-- The members the classes visit. -/
def cls : Nat → ClassDef
  | 1 => { fields := [int] }
  | 2 => { fields := [int, int] }
  | 3 => { fields := [int, int, int] }
  | 4 => { fields := [int, int, int, int] }
  | 5 => { fields := [int, .arr 3 char] }
  | 6 => { fields := [double, .vec float] }
  | 7 => { fields := [float] }
  | 8 => { fields := [int], virt := true }
  | 9 => { fields := [], virt := true, bases := [8] }
  | 11 => { fields := [int] }
  | 12 => { fields := [double, .cls 11] }
  | 13 => { fields := [double, .cls 12] }
  | 14 => { fields := [double, .cls 13] }
  | 15 => { fields := [double, .cls 14] }
  | 16 => { fields := [int], virt := true }
  | 17 => { fields := [int], virt := true, bases := [16] }
  | 18 => { fields := [size, size] }
  | 19 => { fields := [size, size], rfields := [size] }
  | 20 => { fields := [char, double], rfields := [char] }
  | 21 => { fields := [size, size, .cls 20] }
  | 22 => { fields := [.cls 21] }
  | 33 => { fields := [int] }
  | 34 => { fields := [.cls 31, int] }
  | 35 => { fields := [.cls 33, int] }
  | 36 => { fields := [.cls 35, int] }
  | 37 => { fields := [.vec float] }
  | 38 => { fields := [int, int, .vec int, .vec double, .cls 37] }
  | 39 => { fields := [int, int, .vec int] }
  | 40 => { fields := [int, .uptr (.cls 39), .uptr (.cls 39), .uptr (.cls 39)] }
  | 41 => { fields := [], virt := true }
  | 42 => { fields := [], virt := true, bases := [41], abstract := true }
  | 43 => { fields := [.uptr int], virt := true, bases := [41, 42] }
  | 44 => { fields := [.vec int], virt := true, abstract := true }
  | 45 => { fields := [.uset .map 0 (.pair int int), double, .uptr int], virt := true, bases := [44] }
  | 46 => { fields := [.oset .set 0 int], virt := true, bases := [44] }
  | 47 => { fields := [int], virt := true }
  | 48 => { fields := [double, .uptr int], virt := true, bases := [47] }
  | 49 => { fields := [.oset .set 0 int], virt := true, bases := [47] }
  | 50 => { fields := [double], virt := true, bases := [47, 49] }
  | 51 => { fields := [int], virt := true }
  | 52 => { fields := [.vec (.uptr (.cls 44))], virt := true, bases := [51] }
  | 53 => { fields := [.vec (.uptr (.cls 47))], virt := true, bases := [51] }
  | _ => { fields := [] }

/-- Default construction of the classes that are read.  As in the model, an object consists of the members the function
of its class visits. -/
def clsFresh : Nat → Val
  | 11 => .obj 11 [[.raw [0, 0, 0, 0]]]
  | 12 => .obj 12 [[.raw [0, 0, 0, 0, 0, 0, 0xf0, 0x3f], clsFresh 11]]
  | 13 => .obj 13 [[.raw [0, 0, 0, 0, 0, 0, 0, 0x40], clsFresh 12]]
  | 14 => .obj 14 [[.raw [0, 0, 0, 0, 0, 0, 8, 0x40], clsFresh 13]]
  | 15 => .obj 15 [[.raw [0, 0, 0, 0, 0, 0, 0x10, 0x40], clsFresh 14]]
  | 16 => .obj 16 [[.raw [3, 0, 0, 0]]]
  | 17 => .obj 17 [[.raw [3, 0, 0, 0]], [.raw [4, 0, 0, 0]]]
  | 18 => .obj 18 [[.raw [123, 0, 0, 0, 0, 0, 0, 0], .raw [200, 1, 0, 0, 0, 0, 0, 0]]]
  | 19 => .obj 19 [[.raw [123, 0, 0, 0, 0, 0, 0, 0]]]
  | 20 => .obj 20 [[.raw [1]]]
  | 21 => .obj 21 [[.raw [3, 0, 0, 0, 0, 0, 0, 0], .raw [4, 0, 0, 0, 0, 0, 0, 0], clsFresh 20]]
  | 22 => .obj 22 [[clsFresh 21]]
  | 33 => .obj 33 [[.raw [1, 0, 0, 0]]]
  | 34 => .obj 34 [[.obj 31 [[]], .raw [1, 0, 0, 0]]]
  | 35 => .obj 35 [[clsFresh 33, .raw [1, 0, 0, 0]]]
  | 36 => .obj 36 [[clsFresh 35, .raw [1, 0, 0, 0]]]
  | 37 => .obj 37 [[.vec 0 []]]
  | 38 => .obj 38 [[.raw [29, 0, 0, 0], .raw [36, 0, 0, 0], .vec 0 [], .vec 0 [], clsFresh 37]]
  | 39 => .obj 39 [[.raw [0, 0, 0, 0], .raw [0, 0, 0, 0], .vec 0 []]]
  | 40 => .obj 40 [[.raw [0, 0, 0, 0], .ptr none, .ptr none, .ptr none]]
  | 43 => .obj 43 [[], [], [.ptr none]]
  | 45 => .obj 45 [[.vec 0 []], [.coll [], .raw [0, 0, 0, 0, 0, 0, 0, 0], .ptr none]]
  | 46 => .obj 46 [[.vec 0 []], [.coll []]]
  | 47 => .obj 47 [[.raw [0, 0, 0, 0]]]
  | 48 => .obj 48 [[.raw [0, 0, 0, 0]], [.raw [0, 0, 0, 0, 0, 0, 0, 0], .ptr none]]
  | 49 => .obj 49 [[.raw [0, 0, 0, 0]], [.coll []]]
  | 50 => .obj 50 [[.raw [0, 0, 0, 0]], [.coll []], [.raw [0, 0, 0, 0, 0, 0, 0, 0]]]
  | 51 => .obj 51 [[.raw [0, 0, 0, 0]]]
  | 52 => .obj 52 [[.raw [0, 0, 0, 0]], [.vec 0 []]]
  | 53 => .obj 53 [[.raw [0, 0, 0, 0]], [.vec 0 []]]
  | c => .obj c [[]]

mutual
/-- Default construction. -/
def fresh : Ty → Val
  | .prim _ n | .enm _ _ n | .chrono _ _ n => .raw (List.replicate n 0)
  | .str => .str ⟨15, []⟩
  | .vec _ => .vec 0 []
  | .vecBool => .vbool 0 []
  | .seq _ _ | .queue _ | .oset _ _ _ | .uset _ _ _ => .coll []
  | .pair a b => .coll [fresh a, fresh b]
  | .tuple ts => .coll (freshes ts)
  | .opt _ => .opt none
  | .variant [] => .valueless
  | .variant (t :: ts) =>
    if Ty.allByteCopied (t :: ts) then .raw (List.replicate (layout (.variant (t :: ts))).1 0) else .variant 0 (fresh t)
  | .uptr _ => .ptr none
  | .arr k t => .coll (List.replicate k (fresh t))
  | .cls c => clsFresh c
/-- The same for several types. -/
def freshes : List Ty → List Val
  | [] => []
  | t :: ts => fresh t :: freshes ts
end

/-- The number a value is compared by. -/
def key : Val → Nat
  | .raw bs => intVal .little bs
  | .str x => intVal .big x.chars
  | .coll (x :: _) => key x
  | _ => 0

/-- The program. -/
def env : Env where
  ti t := { name := code t, idx := encodeIndex (code t), sizeof := (layout t).1 }
  fresh := fresh
  dflt t := some (fresh t)
  copyable t := match t with | .uptr _ => false | _ => true
  lt _ a b := decide (key a < key b)
  eq _ a b := key a == key b
  arrange _ xs := xs
  cls := cls
  objReg
    | 8 => [9, 8]
    | 16 => [17, 16]
    | 41 => [43, 42, 41]
    | 44 => [45, 46, 44]
    | 47 => [48, 49, 50, 47]
    | 51 => [52, 53, 51]
    | _ => []
  serReg := fun _ => []

/-- The platform. -/
def cfg (check : Bool) : Cfg where
  check := check
  ndebug := false
  endian := .little
  grow n := n
  argOrder n := (List.range n).reverse
  tiSize := env.ti size
  tiBool := env.ti bool
  tiChar := env.ti char
  tiInt := env.ti int

/-- A type of the tests. -/
def the (check : Bool) (t : Ty) : Elem Val := elem (cfg check) env 8 t

/-- `sizeof(T)`. -/
def sizeof (t : Ty) : Nat := (layout t).1

/-- An `int`. -/
def i (n : Nat) : Val := .raw (intBytes .little 4 n)

mutual
/-- `EXPECT_EQ` on objects: capacities do not count. -/
def same : Val → Val → Bool
  | .raw a, .raw b => a == b
  | .str a, .str b => a.chars == b.chars
  | .vec _ a, .vec _ b => sames a b
  | .vbool _ a, .vbool _ b => a == b
  | .coll a, .coll b => sames a b
  | .opt none, .opt none => true
  | .opt (some a), .opt (some b) => same a b
  | .variant k a, .variant l b => k == l && same a b
  | .valueless, .valueless => true
  | .ptr none, .ptr none => true
  | .ptr (some a), .ptr (some b) => same a b
  | .obj c a, .obj d b => c == d && samess a b
  | _, _ => false
/-- The same for several objects. -/
def sames : List Val → List Val → Bool
  | [], [] => true
  | a :: as, b :: bs => same a b && sames as bs
  | _, _ => false
/-- The same for the parts of objects. -/
def samess : List (List Val) → List (List Val) → Bool
  | [], [] => true
  | a :: as, b :: bs => sames a b && samess as bs
  | _, _ => false
end

/-- `checkpoint::serialize(x)`, giving the buffer. -/
def save {T : Type} (check : Bool) (e : Elem T) (x : T) : Out Bytes := do
  let (r, _) ← serialize (cfg check) e none x
  .ok r.mem

/-- `checkpoint::deserialize<U>(buffer)` of what `checkpoint::serialize(x)` returns. -/
def readAs {T U : Type} (check : Bool) (e : Elem T) (x : T) (e' : Elem U) : Out U := do
  let b ← save check e x
  let (y, _) ← deserialize (cfg check) e' b
  .ok y

/-- `checkpoint::serialize(x)`, then `checkpoint::deserialize` gives an equal object. -/
def restored (check : Bool) (t : Ty) (x : Val) : Bool :=
  match readAs check (the check t) x (the check t) with
  | .ok y => same x y
  | _ => false

/-- `checkpoint::serialize(x)->getSize()`. -/
def savedSize (check : Bool) (t : Ty) (x : Val) : Option Nat :=
  match serialize (cfg check) (the check t) none x with
  | .ok r => some r.1.size
  | _ => none

/-- `checkpoint::getSize(x)`. -/
def getSizeOf (check : Bool) (t : Ty) (x : Val) : Option Nat :=
  match getSize (cfg check) (the check t) x with
  | .ok r => some r.1
  | _ => none

/-- `checkpoint::getMemoryFootprint(x, offset)`. -/
def footprintOf {T : Type} (check : Bool) (e : Elem T) (x : T) (offset : Nat := 0) : Option Nat :=
  match getMemoryFootprint (cfg check) e x offset with
  | .ok r => some r.1
  | _ => none

/-- `EXPECT_THROW(.., checkpoint::dispatch::serialization_error)`. -/
def throwsSerializationError {T : Type} : Out T → Bool
  | .throw (.ser _ _ _) => true
  | _ => false

/-- `EXPECT_NO_THROW`. -/
def noThrow {T : Type} : Out T → Bool
  | .ok _ => true
  | _ => false

end Ckpt.UnitTests
