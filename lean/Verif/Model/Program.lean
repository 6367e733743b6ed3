import Verif.Model.Compose
/-!
# Serialize functions with control flow, over any types

As `Verif.Model.UserBody`, with members of all types of `Verif.Model.Compose`, local variables of any type, and any code
between the calls, also such that runs only when reading.
-/

set_option autoImplicit false

namespace Ckpt

/-- What a `serialize` function of a class with objects `O` does, as in the examples and tests of the library
(e.g. tests/unit/test_virtual_serialize.cc:341-367, tests/unit/test_serialization_error_checking.cc:183-230).  `get` is
where the data is: it gives nothing if there is no such object (a null pointer, an index out of range); `set` is the
object after the data there was overwritten.  Simplified: there are no effects outside of the object. -/
inductive Prog (O : Type) : Type 1
  /-- end of the function -/
  | done
  /-- `s | m;` (dispatch.impl.h:249-288) -/
  | visit {A : Type} (t : CppType A) (get : O → Option A) (set : A → O → O) (k : Prog O)
  /-- `dispatch::serializeArray(s, ptr, n);` (dispatch.impl.h:229-247) -/
  | block {A : Type} (t : CppType A) (get : O → Option (List A)) (set : List A → O → O) (k : Prog O)
  /-- `T v = f(*this); s | v;` and code that uses `v` -/
  | value {A : Type} (t : CppType A) (f : O → A) (k : A → Prog O)
  /-- `size_t c = f(*this); s | c;` and code that uses `c` -/
  | count (f : O → Nat) (k : Nat → Prog O)
  /-- `bool b = f(*this); s | b;` and code that uses `b` -/
  | flag (f : O → Bool) (k : Bool → Prog O)
  /-- code that changes the object, e.g. `vec.resize(c);` -/
  | update (g : O → O) (k : Prog O)
  /-- `if (s.isUnpacking()) { .. } else { .. }`, each including what follows (serializers/base_serializer.h:114) -/
  | mode (reading writing : Prog O)
  /-- `s.addBytes(f(*this));` (serializers/base_serializer.h:136, footprinter.h:67-69) -/
  | addBytes (f : O → Nat) (k : Prog O)
  /-- code that depends on the object as it is now -/
  | look (k : O → Prog O)

variable {O : Type}

/-- Running the function. -/
def Prog.run (cfg : Cfg) (n : Nat) : Prog O → Ser → O → Out (O × Ser)
  | .done, s, o => .ok (o, s)
  | .visit t get set k, s, o =>
    match get o with
    | some a => do
      let (a, s) ← pipe cfg (t.elem n) s a
      k.run cfg n s (set a o)
    | none => .ub .nullDeref
  | .block t get set k, s, o =>
    match get o with
    | some as => do
      let (as, s) ← serializeArray cfg (t.elem n) s as
      k.run cfg n s (set as o)
    | none => .ub .badRegion
  | .value t f k, s, o => do
    let (a, s) ← pipe cfg (t.elem n) s (f o)
    (k a).run cfg n s o
  | .count f k, s, o => do
    let (c, s) ← pipeSize cfg s (f o)
    (k c).run cfg n s o
  | .flag f k, s, o => do
    let (b, s) ← pipeBool cfg s (f o)
    (k b).run cfg n s o
  | .update g k, s, o => k.run cfg n s (g o)
  | .mode r w, s, o => if s.isUnpacking then r.run cfg n s o else w.run cfg n s o
  | .addBytes f k, s, o => k.run cfg n (s.addBytes (f o)) o
  | .look k, s, o => (k o).run cfg n s o

/-- The class with this `serialize` function (dispatch_serializer_nonbyte.h:174-201); `fresh` and `dflt` are what its
constructors make (dispatch/reconstructor.h:59-145). -/
def CppType.program (cfg : Cfg) (ti : TI) (fresh : O) (dflt : Option O) (copyable : Bool) (p : Prog O) : CppType O :=
  { ti := ti, apply := fun n => dispatchEach (p.run cfg n), fresh := fresh, dflt := dflt, copyable := copyable }

/-! ### Patterns -/

/-- `for (; n > 0; n--, i++) s | vec[i];`. -/
def Prog.each {A : Type} (t : CppType A) : (n i : Nat) → Prog (List A)
  | 0, _ => .done
  | n + 1, i => .visit t (fun o => o[i]?) (fun a o => o.set i a) (each t n (i + 1))

/-- `vec.resize(c);`. -/
def resizeTo {A : Type} (new : A) (c : Nat) (o : List A) : List A := o.take c ++ List.replicate (c - o.length) new

/-- `auto c = vec.size(); s | c; vec.resize(c); for (auto&& e : vec) s | e;`
(tests/unit/test_virtual_serialize.cc:341-357, there with more for each element). -/
def Prog.resized {A : Type} (t : CppType A) (new : A) : Prog (List A) :=
  .count List.length fun c => .update (resizeTo new c) (.each t c 0)

/-- `bool null = p == nullptr; s | null; if (!null) { if (s.isUnpacking()) p = new T; s | *p; }
else if (s.isUnpacking()) p = nullptr;`, for a raw pointer that owns an object
(as container/unique_ptr_serialize.h:53-71 for another pointer). -/
def Prog.owned {A : Type} (t : CppType A) (new : A) : Prog (Option A) :=
  .flag Option.isNone fun null =>
    if null then .mode (.update (fun _ => none) .done) .done
    else .mode (.update (fun _ => some new) (.visit t id (fun a _ => some a) .done))
      (.visit t id (fun a _ => some a) .done)

/-- A member of a class with objects `O`. -/
structure Slot (O : Type) : Type 1 where
  A : Type
  t : CppType A
  get : O → A
  set : A → O → O

/-- `s | a | b | ..;`. -/
def Prog.line : List (Slot O) → Prog O
  | [] => .done
  | r :: rs => .visit r.t (fun o => some (r.get o)) r.set (line rs)

/-- `if (s.isUnpacking()) { s | a; } else { s | a | b; }`, with any two lists of members
(tests/unit/test_serialization_error_checking.cc:183-208). -/
def Prog.twoWays (reading writing : List (Slot O)) : Prog O := .mode (.line reading) (.line writing)

end Ckpt
