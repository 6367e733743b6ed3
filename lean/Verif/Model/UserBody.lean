import Verif.Model.Universe
/-!
# Serialize functions with control flow

The classes of `Verif.Model.Universe` visit a fixed list of members.  Users may write any code in `serialize`; here are
functions that decide, allocate and loop, as in the tests and examples of the library
(e.g. tests/unit/test_virtual_serialize.cc:341-367, container/optional_serialize.h:63-86), built from the calls the
library offers: `s | x` (dispatch.impl.h:249-288), `dispatch::serializeArray(s, ptr, n)` (dispatch.impl.h:229-247) and
`s.isUnpacking()` (serializers/base_serializer.h:114).
-/

set_option autoImplicit false

namespace Ckpt

/-- An object of a user's class: each of its members is one or several objects (an array, the objects a pointer points
to). -/
abbrev Slots := Nat → List Val

/-- The object with another value of member `m`. -/
def Slots.put (o : Slots) (m : Nat) (vs : List Val) : Slots := fun i => if i = m then vs else o i

/-- What a `serialize` function does.  Simplified: it only changes the object by reading into it and in `make`, and has
no effects outside the object. -/
inductive Body
  /-- end of the function -/
  | done
  /-- `for (i = 0; i < n; i++) s | m[i];`; for `n = 1` this is `s | m;` -/
  | each (m : Nat) (t : Ty) (n : Nat) (k : Body)
  /-- `dispatch::serializeArray(s, m, n);` -/
  | array (m : Nat) (t : Ty) (n : Nat) (k : Body)
  /-- `size_t c = f(*this); s | c;` and code that uses `c` -/
  | count (f : Slots → Nat) (k : Nat → Body)
  /-- `bool b = f(*this); s | b;` and code that uses `b` -/
  | flag (f : Slots → Bool) (k : Bool → Body)
  /-- `if (s.isUnpacking()) m = new T[n]{};` -/
  | make (m : Nat) (t : Ty) (n : Nat) (k : Body)
  /-- code that depends on the object as it is now -/
  | look (k : Slots → Body)

/-- `s | m;` -/
abbrev Body.one (m : Nat) (t : Ty) (k : Body) : Body := .each m t 1 k

/-- The elements of `new T[n]{}`. -/
def madeOf (env : Env) (t : Ty) (n : Nat) : List Val := List.replicate n ((env.dflt t).getD (env.fresh t))

/-- Running the function.  `el` are the types of the members.  Accessing elements that do not exist is undefined
behaviour. -/
def Body.run (cfg : Cfg) (env : Env) (el : Ty → Elem Val) : Body → Ser → Slots → Out (Slots × Ser)
  | .done, s, o => .ok (o, s)
  | .each m t n k, s, o =>
    if n ≤ (o m).length then do
      let (vs, s) ← pipeEach cfg (el t) s ((o m).take n)
      k.run cfg env el s (o.put m (vs ++ (o m).drop n))
    else .ub .badRegion
  | .array m t n k, s, o =>
    if n ≤ (o m).length then do
      let (vs, s) ← serializeArray cfg (el t) s ((o m).take n)
      k.run cfg env el s (o.put m (vs ++ (o m).drop n))
    else .ub .badRegion
  | .count f k, s, o => do
    let (c, s) ← pipeSize cfg s (f o)
    (k c).run cfg env el s o
  | .flag f k, s, o => do
    let (b, s) ← pipeBool cfg s (f o)
    (k b).run cfg env el s o
  | .make m t n k, s, o =>
    k.run cfg env el s (if s.isUnpacking then o.put m (madeOf env t n) else o)
  | .look k, s, o => (k o).run cfg env el s o

/-- The class with this `serialize` function (dispatch_serializer_nonbyte.h:174-201) as an element type; `fresh` is what
its constructor makes. -/
def bodyElem (cfg : Cfg) (env : Env) (ti : TI) (fresh : Slots) (b : Body) (el : Ty → Elem Val) : Elem Slots :=
  { ti := ti, apply := dispatchEach (b.run cfg env el), fresh := fresh, dflt := some fresh, copyable := true }

end Ckpt
