import Verif.Model.Api
import Verif.Model.Universe
/-!
# User-defined dispatchers

A traverser may name a class `DispatcherType` of its own (serializers/base_serializer.h:79 gives the
default, dispatch/dispatch.impl.h:77, 110, 140 pass it on).  Its functions `serializeIntrusive` and
`serializeNonIntrusive` are called instead of the `serialize` function of a type; usually they do
something and then call it (tests/unit/test_traversal.cc, examples/checkpoint_example_traversal.cc).
-/

set_option autoImplicit false

namespace Ckpt

/-- What the dispatcher does with an object of some type: tell the traverser something about it and not
look inside, or tell it something before and after calling the object's own `serialize` function
(`BasicDispatcher`, dispatch/dispatch_serializer_nonbyte.h:59-68, is `around` with nothing to tell).

Simplified: the dispatcher does not change objects, and the only effect of telling the traverser
something is that it is appended to what it has been shown. -/
inductive Action
  | instead (tell : Val → Bytes)
  | around (before after : Val → Bytes)

/-- The user's code tells a traverser something. -/
def Ser.tell (s : Ser) (bs : Bytes) : Ser :=
  match s.core with
  | .traverser seen => { s with core := .traverser (seen ++ bs) }
  | _ => s

/-- Whether the dispatcher is called for objects of type `t`: not for types that are copied bytewise
(dispatch/dispatch_serializer_byte.h:66-71) nor for enumerations
(dispatch/dispatch_serializer_nonbyte.h:203-209); for every type with an intrusive or non-intrusive
`serialize` function (174-201).  Objects of virtually serializable classes are first
sent through the serializer registry (217-234), where no user-defined traverser can be (C28); they
are left as they are. -/
def asksDispatcher (env : Env) : Ty → Bool
  | .prim _ _ => false
  | .enm _ _ _ => false
  | .variant ts => !Ty.allByteCopied ts
  | .cls c => !(env.cls c).virt
  | _ => true

/-- `h` for a single object. -/
def single (h : Handler Val) (s : Ser) (v : Val) : Out (Val × Ser) := do
  let (ys, s) ← h s [v]
  match ys with
  | [y] => .ok (y, s)
  | _ => .ub .badRegion

/-- `Dispatcher::serializeIntrusive(s, val[i])` and `serializeNonIntrusive`
(dispatch/dispatch_serializer_nonbyte.h:183, 197) of the user's dispatcher; `h` is the object's own
`serialize` function. -/
def runAction (a : Action) (h : Handler Val) (s : Ser) (v : Val) : Out (Val × Ser) :=
  match a with
  | .instead tell => .ok (v, s.tell (tell v))
  | .around before after => do
    let (v', s) ← single h (s.tell (before v)) v
    .ok (v', s.tell (after v))

/-- `SerializerDispatch` with the user's dispatcher (dispatch/dispatch_serializer_nonbyte.h:174-234,
dispatch_serializer_byte.h:66-79): it is called for the objects of an array one after the other. -/
def dispatchWith (cfg : Cfg) (env : Env) (act : Ty → Action) : Nat → Ty → Handler Val
  | 0, _ => fun _ _ => .fuel
  | n + 1, t =>
    if asksDispatcher env t then
      dispatchEach (runAction (act t) (dispatchStep cfg env (dispatchWith cfg env act n) t))
    else dispatchStep cfg env (dispatchWith cfg env act n) t

/-- `Traverse::with<T, TraverserT>` (dispatch.impl.h:169-188) of a user-defined traverser with a
dispatcher of its own: what it is shown. -/
def traverseWith (cfg : Cfg) (env : Env) (act : Ty → Action) (n : Nat) (t : Ty) (x : Val) :
    Out (Bytes × Val) :=
  traverseCustom cfg (env.elemOf (dispatchWith cfg env act n t) t) x

end Ckpt
