import Verif.Spec.Formed
import Verif.Model.Registry
/-!
# Specification: checkpoints of builds with and without error checking
-/

set_option autoImplicit false

namespace Ckpt

/-- With error checking, the data of an object of type `t` have another header behind the first one: something is
traversed inside, whatever the object. -/
def Env.opens (env : Env) : Ty → Bool
  | .prim _ _ => false
  | .variant ts => !Ty.allOnlyBytes ts
  | .tuple ts => !ts.isEmpty
  | .arr n _ => n != 0
  | .cls c => (env.cls c).virt || !(env.cls c).fields.isEmpty
  | _ => true

/-- Every type index is at least this large, and counts below it have a first half (in memory) that no type index can
be. -/
def smallCount : Nat := 0xDE000000

/-- `BeginsCounted cfg env t x`: what a build `cfg` without error checking writes of `x` behind the header begins with a
number of elements (or a capacity, or the number of an alternative) below `smallCount`, or with a flag. -/
inductive BeginsCounted (cfg : Cfg) (env : Env) : Ty → Val → Prop
  | str {x : Str} : x.chars.length < smallCount → BeginsCounted cfg env .str (.str x)
  | vec {t : Ty} {cap : Nat} {xs : List Val} : cap < smallCount → BeginsCounted cfg env (.vec t) (.vec cap xs)
  | vecBool {cap : Nat} {bs : List Bool} : cap < smallCount → BeginsCounted cfg env .vecBool (.vbool cap bs)
  | seq {k : SeqKind} {t : Ty} {xs : List Val} : xs.length < smallCount → BeginsCounted cfg env (.seq k t) (.coll xs)
  | queue {t : Ty} {xs : List Val} : xs.length < smallCount → BeginsCounted cfg env (.queue t) (.coll xs)
  | oset {a : Assoc} {cmp : Nat} {t : Ty} {xs : List Val} : xs.length < smallCount →
      BeginsCounted cfg env (.oset a cmp t) (.coll xs)
  | uset {a : Assoc} {eq : Nat} {t : Ty} {xs : List Val} : xs.length < smallCount →
      BeginsCounted cfg env (.uset a eq t) (.coll xs)
  | opt {t : Ty} {x : Option Val} : BeginsCounted cfg env (.opt t) (.opt x)
  | uptr {t : Ty} {x : Option Val} : BeginsCounted cfg env (.uptr t) (.ptr x)
  | variant {ts : List Ty} {i : Nat} {x : Val} : i < smallCount → BeginsCounted cfg env (.variant ts) (.variant i x)
  /-- a pair whose first half begins so, -/
  | pair {a b : Ty} {x y : Val} : BeginsCounted cfg env a x → BeginsCounted cfg env (.pair a b) (.coll [x, y])
  /-- a tuple whose component evaluated first does, -/
  | tuple {ts : List Ty} {xs : List Val} {i : Nat} {t : Ty} {x : Val} : (cfg.argOrder ts.length).head? = some i →
      ts[i]? = some t → xs[i]? = some x → BeginsCounted cfg env t x → BeginsCounted cfg env (.tuple ts) (.coll xs)
  /-- an array whose first element does, -/
  | arr {n : Nat} {t : Ty} {x : Val} {xs : List Val} : BeginsCounted cfg env t x → BeginsCounted cfg env (.arr n t) (.coll (x :: xs))
  /-- and an object whose first class has a first member that does. -/
  | obj {c d k : Nat} {ks : List Nat} {t : Ty} {ts : List Ty} {x : Val} {p : List Val} {ps : List (List Val)} :
      env.chain d = k :: ks → (env.cls k).fields = t :: ts → BeginsCounted cfg env t x →
      BeginsCounted cfg env (.cls c) (.obj d ((x :: p) :: ps))

end Ckpt
