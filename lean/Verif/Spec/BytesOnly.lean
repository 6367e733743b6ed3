import Verif.Model.Universe
/-!
# Specification: types whose objects are their bytes
-/

set_option autoImplicit false

namespace Ckpt

mutual
/-- Byte-copyable types, and variants all alternatives of which are such types: the objects are handled as their bytes. -/
def Ty.onlyBytes : Ty → Bool
  | .prim _ _ => true
  | .variant ts => Ty.allOnlyBytes ts
  | .enm _ _ _ | .chrono _ _ _ | .str | .vec _ | .vecBool | .seq _ _ | .queue _ | .oset _ _ _ | .uset _ _ _ | .pair _ _
  | .tuple _ | .opt _ | .uptr _ | .arr _ _ | .cls _ => false

/-- All of them are. -/
def Ty.allOnlyBytes : List Ty → Bool
  | [] => true
  | t :: ts => t.onlyBytes && Ty.allOnlyBytes ts
end

/-- Types whose objects have a `serialize` function that is called for each object: not those handled as bytes, not
enumerations, not virtually serializable classes. -/
def Env.ownFunction (env : Env) (t : Ty) : Bool :=
  !t.onlyBytes && !(match t with | .enm _ _ _ => true | _ => false) && !env.isVirt t

/-- Multisets and multimaps: a key may occur more than once. -/
def Assoc.repeats (a : Assoc) : Bool := a = .multiset || a = .multimap

end Ckpt
